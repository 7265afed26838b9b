import Verif.Props.BywordsProgram
import Verif.Props.FileDiff

/-!
# C139: running bywords again
-/

namespace Sang

open Spec

/-! ## The text of a layer, once adjusted -/

/-- The element of a text that changes, with only strings. -/
def AText (v : Node) : Prop :=
  ∃ ws : List Waypoint, v = .tag "animated" [("type", .str "string".toList)] (ws.map Waypoint.tag) ∧
    ∀ w ∈ ws, ∃ s, w.val = .tag "string" [] [.text s]

theorem legal_string {v : Node} (h : Legal "string".toList v) : ∃ a ks, v = .tag "string" a ks := by
  obtain ⟨h1, -, h3, -⟩ := h
  cases v with
  | text s => cases h1
  | tag n a ks =>
    rw [Node.name] at h3
    have : n = "string" := String.toList_inj.1 h3
    subst this
    exact ⟨a, ks, rfl⟩

theorem animate_head {F : Fl} {ctx : Ctx} {c : VCls} {v m : Node} (hv : Legal "string".toList v)
    (h : animate F ctx c v = (m, .ok ())) : ∃ ks, m = .tag "animated" [("type", .str "string".toList)] ks := by
  obtain ⟨a, ks, rfl⟩ := legal_string hv
  rw [animate, if_neg hv.2.1] at h
  split at h
  · cases h
  rename_i u hu
  have e : (startAnimation (.tag "string" a ks)).setKids [] =
      .tag "animated" [("type", .str "string".toList)] [] := by
    rw [startAnimation, if_neg hv.2.1]; rfl
  rw [e, setItem] at h
  split at h
  · cases h
  split at h
  · cases h
  rename_i w hw
  rw [if_pos (by rfl)] at h
  simp only at h
  split at h
  · cases h
  rename_i ws hws
  split at h
  · cases h
  rw [setWaypoints, if_neg (putWp_ne_nil w ws)] at h
  split at h
  · cases h
  injection h with h1 h2
  rw [← h1, startAnimation, if_pos (by rfl)]
  exact ⟨_, rfl⟩

/-- Adding a waypoint to what isn't animated. -/
theorem addWaypoints_legal {F : Fl} {ctx : Ctx} {c : VCls} {w : Waypoint} {v m : Node} (hv : Legal "string".toList v)
    (h : addWaypoints F ctx c [w] true v = (m, .ok ())) :
    m = .tag "animated" [("type", .str "string".toList)] [w.tag] := by
  rw [addWaypoints, waypoints_static F ctx hv.2.1] at h
  simp only [List.any_nil, Bool.false_eq_true, if_false, clashes, List.flatMap_nil, if_true, delClashes] at h
  split at h
  · cases h
  rename_i m1 hm1
  obtain ⟨ks, rfl⟩ := animate_head hv hm1
  split at h
  · cases h
  split at h
  · cases h
  injection h with h1 h2
  rw [← h1]
  rfl

theorem setConstant_legal {F : Fl} {ctx : Ctx} {time s : Str} {v v' : Node} (hv : Legal "string".toList v)
    (hv' : Legal "string".toList v') (h : (setConstant F ctx time s v).2 = .ok ())
    (h' : (setConstant F ctx time s v').2 = .ok ()) :
    setConstant F ctx time s v = setConstant F ctx time s v' := by
  refine Prod.ext ?_ (h.trans h'.symm)
  have hnew : newValue F .string (.str s) = .ok (.tag "string" [] [.text s]) := rfl
  simp only [setConstant, hnew] at h h' ⊢
  split at h
  · cases h
  rename_i t ht
  simp only [ht] at h' ⊢
  split at h
  · cases h
  rename_i w hw
  simp only [hw] at h' ⊢
  rw [addWaypoints_legal (m := (addWaypoints F ctx .string [w] true v).1) hv (Prod.ext rfl h),
    addWaypoints_legal (m := (addWaypoints F ctx .string [w] true v').1) hv' (Prod.ext rfl h')]

/-- What becomes of a text doesn't depend on what it was. -/
theorem adjustText_any {F : Fl} (hF : F.Lawful) {ctx : Ctx} {r : ℚ} (hf : readFps F ctx.root = .ok (some r))
    (hp : ctx.hasParent = true) {v v' : Node} (hv : Legal "string".toList v) (hv' : Legal "string".toList v')
    (x : ℕ × ℕ) (words : List WordTiming) : adjustText F ctx x words v = adjustText F ctx x words v' := by
  have s1 := (setConstant_spec (s := []) hf (textIs_static hF hf hp hv) (new_zero_seconds hF hf) le_rfl).1
  have s2 := (setConstant_spec (s := []) hf (textIs_static hF hf hp hv') (new_zero_seconds hF hf) le_rfl).1
  rw [adjustText, adjustText, setConstant_legal hv hv' s1 s2]

theorem waypoint_new_val {F : Fl} {root : Option Attrs} {t : TimeArg} {c : VCls} {o : Option Attrs} {n : Node}
    {b a : Str} {w : Waypoint} (h : Waypoint.new F root t (.val c o n) b a = .ok w) : w.val = n := by
  simp only [Waypoint.new] at h
  split at h
  · cases h
  split at h
  · cases h
  split at h
  · cases h
  split at h
  · cases h
  injection h with h
  rw [← h]

theorem fromTag_val {F : Fl} {root : Option Attrs} {ty : Str} {n : Node} {w : Waypoint}
    (h : Waypoint.fromTag F root ty n = .ok w) : w.val ∈ n.tagKids := by
  simp only [Waypoint.fromTag] at h
  split at h
  · cases h
  split at h
  · cases h
  split at h
  · cases h
  split at h
  · rename_i v hk
    split at h
    · cases h
    split at h
    · cases h
    split at h
    · cases h
    split at h
    · cases h
    split at h
    · cases h
    split at h
    · cases h
    split at h
    · cases h
    cases h
    rw [hk]; simp
  · cases h

/-- The values of waypoints are in the elements of waypoints. -/
theorem waypoints_val {F : Fl} {ctx : Ctx} {n : Node} {ws : List Waypoint} (h : waypoints F ctx n = .ok ws) :
    ∀ w ∈ ws, ∃ k ∈ n.tagKids, w.val ∈ k.tagKids := by
  rw [waypoints] at h
  split at h
  · cases h; simp
  split at h
  · cases h
  split at h
  · cases h
  rename_i l hl
  cases h
  intro w hw
  rcases mem_foldl_putWp hw with hw | hw
  · obtain ⟨x, hx, e⟩ := mapRes_mem hl hw
    rw [waypointTags] at hx
    split at hx
    · cases hx
    · exact ⟨x, hx, fromTag_val e⟩
  · cases hw

theorem AText.vals {F : Fl} {ctx : Ctx} {v : Node} (h : AText v) {ws : List Waypoint}
    (hw : waypoints F ctx v = .ok ws) : ∀ w ∈ ws, ∃ s, w.val = .tag "string" [] [.text s] := by
  obtain ⟨us, rfl, hus⟩ := h
  intro w hwm
  obtain ⟨k, hk, hv⟩ := waypoints_val hw w hwm
  obtain ⟨u, hu, rfl⟩ := List.mem_map.1 (List.mem_filter.1 hk).1
  obtain ⟨s, hs⟩ := hus u hu
  have : w.val = u.val := List.mem_singleton.1 (List.mem_filter.1 hv).1
  exact ⟨s, this.trans hs⟩

theorem aText_setConstant {F : Fl} {ctx : Ctx} {time s : Str} {v : Node}
    (hv : Legal "string".toList v ∨ AText v) (h : (setConstant F ctx time s v).2 = .ok ()) :
    AText (setConstant F ctx time s v).1 := by
  have hnew : newValue F .string (.str s) = .ok (.tag "string" [] [.text s]) := rfl
  simp only [setConstant, hnew] at h ⊢
  split at h
  · cases h
  rename_i t ht
  split at h
  · cases h
  rename_i w hw
  have hwv := waypoint_new_val hw
  rcases hv with hv | hv
  · rw [addWaypoints_legal (m := (addWaypoints F ctx .string [w] true v).1) hv (Prod.ext rfl h)]
    exact ⟨[w], rfl, fun u hu => ⟨s, by rw [List.mem_singleton.1 hu]; exact hwv⟩⟩
  · have hna : v.name = "animated" := by obtain ⟨_, rfl, -⟩ := hv; rfl
    have hvv := hv
    obtain ⟨us, hus, -⟩ := hv
    rw [addWaypoints] at h ⊢
    split at h
    · cases h
    rename_i ex hex
    simp only
    split at h
    · cases h
    rename_i hd
    rw [if_neg hd]
    simp only [if_true] at h ⊢
    split at h
    · cases h
    rename_i kept hk
    have han : animate F ctx .string v = (v, .ok ()) := by rw [animate, if_pos hna]
    simp only [han] at h ⊢
    split at h
    · cases h
    rename_i h1
    rw [if_neg h1]
    split at h
    · cases h
    rename_i h2
    rw [if_neg h2]
    refine ⟨_, by rw [hus]; rfl, ?_⟩
    intro u hu
    have hu := (List.perm_insertionSort _ _).mem_iff.1 hu
    rcases mem_foldl_putWp hu with hu | hu
    · rcases mem_foldl_putWp hu with hu | hu
      · exact ⟨s, by rw [List.mem_singleton.1 hu]; exact hwv⟩
      · cases hu
    · exact hvv.vals hex u (mem_delClashes hk hu)

theorem aText_setWords {F : Fl} {ctx : Ctx} {words : List WordTiming} {v : Node} (hv : AText v)
    (h : (setWords F ctx words v).2 = .ok ()) : AText (setWords F ctx words v).1 := by
  induction words generalizing v with
  | nil => exact hv
  | cons w ws ih =>
    rw [setWords] at h ⊢
    cases hc : setConstant F ctx (reprF F w.time) w.text v with
    | mk m o =>
      simp only [hc] at h ⊢
      cases o with
      | error e => cases h
      | ok u =>
        have := aText_setConstant (F := F) (ctx := ctx) (time := reprF F w.time) (s := w.text) (Or.inr hv) (by rw [hc])
        rw [hc] at this
        exact ih this h

theorem aText_adjust {F : Fl} {ctx : Ctx} {x : ℕ × ℕ} {words : List WordTiming} {v : Node}
    (hv : Legal "string".toList v) (h : (adjustText F ctx x words v).2 = .ok ()) :
    AText (adjustText F ctx x words v).1 := by
  rw [adjustText] at h ⊢
  cases hc : setConstant F ctx ['0'] [] v with
  | mk m o =>
    simp only [hc] at h ⊢
    cases o with
    | error e => cases h
    | ok u =>
      have := aText_setConstant (F := F) (ctx := ctx) (time := ['0']) (s := []) (Or.inl hv) (by rw [hc])
      rw [hc] at this
      exact aText_setWords this h

/-! ## Documents in which nothing is hidden in texts -/

/-- Whether an element with this name and these attributes is a text layer. -/
def isTextHead (n : String) (a : Attrs) : Bool := n = "layer" && a.get "type" = some (.str "text".toList)

mutual
/-- There is no param called "type_", and no layer in a text layer (or, if `b`, anywhere). -/
def Calm (b : Bool) : Node → Prop
  | .text _ => True
  | .tag n a ks => ¬ (n = "param" ∧ a.get "name" = some (.str "type_".toList)) ∧ (b = true → n ≠ "layer") ∧
      CalmKids (b || isTextHead n a) ks
def CalmKids (b : Bool) : List Node → Prop
  | [] => True
  | x :: r => Calm b x ∧ CalmKids b r
end

theorem calmKids_iff {b : Bool} {ks : List Node} : CalmKids b ks ↔ ∀ k ∈ ks, Calm b k := by
  induction ks with
  | nil => simp [CalmKids]
  | cons x r ih => simp [CalmKids, ih]

mutual
theorem Calm.weaken : ∀ {n : Node}, Calm true n → ∀ b, Calm b n
  | .text _, _, _ => trivial
  | .tag n a ks, h, b => by
    obtain ⟨h1, h2, h3⟩ := h
    exact ⟨h1, fun _ => h2 rfl, CalmKids.weaken h3 _⟩
theorem CalmKids.weaken : ∀ {ks : List Node}, CalmKids true ks → ∀ b, CalmKids b ks
  | [], _, _ => trivial
  | _ :: _, h, b => ⟨h.1.weaken b, CalmKids.weaken h.2 b⟩
end

theorem Calm.or {n : Node} {b : Bool} (h : Calm b n) (c : Bool) (hc : c = true → b = true) : Calm c n := by
  cases b with
  | true => exact h.weaken c
  | false =>
    cases c with
    | false => exact h
    | true => exact absurd (hc rfl) (by simp)

theorem Calm.at : ∀ {p : List ℕ} {n x : Node} {b : Bool}, Calm b n → nodeAt p n = some x → ∃ c, Calm c x ∧ (b = true → c = true)
  | [], n, x, b, h, hx => by injection hx with hx; subst hx; exact ⟨b, h, id⟩
  | i :: p, .text s, x, b, h, hx => by rw [nodeAt_text (by simp)] at hx; cases hx
  | i :: p, .tag n a ks, x, b, h, hx => by
    rw [nodeAt_cons, Node.kids] at hx
    cases hi : ks[i]? with
    | none => rw [hi] at hx; cases hx
    | some y =>
      rw [hi] at hx
      obtain ⟨c, h1, h2⟩ := Calm.at (calmKids_iff.1 h.2.2 y (List.mem_of_getElem? hi)) hx
      exact ⟨c, h1, fun e => h2 (by rw [e]; rfl)⟩

/-- In a text layer. -/
theorem Calm.below {n x : Node} {b : Bool} (h : Calm b n) (ht : IsLayer "text" n) {p : List ℕ} (hp : p ≠ [])
    (hx : nodeAt p n = some x) : Calm true x := by
  cases n with
  | text s => simp [IsLayer, Node.name] at ht
  | tag nm a ks =>
    cases p with
    | nil => exact absurd rfl hp
    | cons i p =>
      rw [nodeAt_cons, Node.kids] at hx
      have hh : isTextHead nm a = true := by
        have h1 : nm = "layer" := ht.1
        have h2 : a.get "type" = _ := ht.2
        simp [isTextHead, h1, h2]
      cases hi : ks[i]? with
      | none => rw [hi] at hx; cases hx
      | some y =>
        rw [hi] at hx
        have hk := h.2.2
        rw [hh, Bool.or_true] at hk
        obtain ⟨c, h1, h2⟩ := Calm.at (calmKids_iff.1 hk y (List.mem_of_getElem? hi)) hx
        rw [h2 rfl] at h1
        exact h1

theorem calm_of {n : Node} (h1 : ∀ p x, nodeAt p n = some x → ¬ IsParam "type_" x) :
    (∀ p q x y, nodeAt p n = some x → IsLayer "text" x → q ≠ [] → nodeAt q x = some y → y.name ≠ "layer") →
    Calm false n ∧ ((∀ p x, nodeAt p n = some x → x.name ≠ "layer") → Calm true n) := by
  suffices h : ∀ (k : ℕ) (n : Node), sizeOf n ≤ k → (∀ p x, nodeAt p n = some x → ¬ IsParam "type_" x) →
      (∀ p q x y, nodeAt p n = some x → IsLayer "text" x → q ≠ [] → nodeAt q x = some y → y.name ≠ "layer") →
      Calm false n ∧ ((∀ p x, nodeAt p n = some x → x.name ≠ "layer") → Calm true n) from
    h _ n le_rfl h1
  intro k
  induction k with
  | zero =>
    intro n hn
    cases n with
    | text s => intro _ _; exact ⟨trivial, fun _ => trivial⟩
    | tag n a ks => simp at hn
  | succ k ih =>
    intro n hn h1 h2
    cases n with
    | text s => exact ⟨trivial, fun _ => trivial⟩
    | tag n a ks =>
      have hk : ∀ x ∈ ks, Calm false x ∧ ((∀ p y, Spec.nodeAt p x = some y → y.name ≠ "layer") → Calm true x) := by
        intro x hx
        obtain ⟨i, hi⟩ := List.mem_iff_getElem?.1 hx
        have hsz := List.sizeOf_lt_of_mem hx
        refine ih x (by simp only [Node.tag.sizeOf_spec] at hn; omega) (fun p y hy => h1 (i :: p) y ?_) (fun p q y z hy => h2 (i :: p) q y z ?_)
        · rw [nodeAt_cons, Node.kids, hi]; exact hy
        · rw [nodeAt_cons, Node.kids, hi]; exact hy
      have hp : ¬ (n = "param" ∧ a.get "name" = some (.str "type_".toList)) := h1 [] _ rfl
      have hin : ∀ x ∈ ks, ∀ p y, Spec.nodeAt p x = some y → ∃ q, q ≠ [] ∧ Spec.nodeAt q (.tag n a ks) = some y := by
        intro x hx p y hy
        obtain ⟨i, hi⟩ := List.mem_iff_getElem?.1 hx
        exact ⟨i :: p, by simp, by rw [nodeAt_cons, Node.kids, hi]; exact hy⟩
      refine ⟨⟨hp, by simp, ?_⟩, fun h3 => ⟨hp, fun _ => h3 [] _ rfl, ?_⟩⟩
      · rw [Bool.false_or]
        cases hh : isTextHead n a with
        | false => exact calmKids_iff.2 fun x hx => (hk x hx).1
        | true =>
          refine calmKids_iff.2 fun x hx => (hk x hx).2 fun p y hy => ?_
          obtain ⟨q, hq, hy⟩ := hin x hx p y hy
          refine h2 [] q _ y rfl ?_ hq hy
          simpa [isTextHead, IsLayer, Node.name, Node.attrs] using hh
      · rw [Bool.true_or]
        refine calmKids_iff.2 fun x hx => (hk x hx).2 fun p y hy => ?_
        obtain ⟨q, hq, hy⟩ := hin x hx p y hy
        exact h3 q y hy

/-! What is done to documents keeps them so. -/

/-- What keeps the name and the attributes of an element. -/
def KeepsHead (g : Node → Node) : Prop :=
  ∀ x, (g x).isTag = x.isTag ∧ (g x).name = x.name ∧ (g x).attrs = x.attrs

theorem KeepsHead.tag {g : Node → Node} (h : KeepsHead g) (n : String) (a : Attrs) (ks : List Node) :
    ∃ ks', g (.tag n a ks) = .tag n a ks' := by
  obtain ⟨h1, h2, h3⟩ := h (.tag n a ks)
  cases hg : g (.tag n a ks) with
  | text s => rw [hg] at h1; cases h1
  | tag n' a' ks' =>
    rw [hg] at h2 h3
    have h2 : n' = n := h2
    have h3 : a' = a := h3
    subst h2; subst h3
    exact ⟨ks', rfl⟩

theorem keepsHead_updFirst (P : Node → Bool) (g : Node → Node) : KeepsHead (updFirst P g) := by
  intro x
  cases x with
  | text s => exact ⟨rfl, rfl, rfl⟩
  | tag n a ks => exact ⟨rfl, rfl, rfl⟩

theorem keepsHead_onParam (f : Str) (g : VCls → Node → Node × Res Unit) : KeepsHead fun x => (onParam f g x).1 := by
  intro x
  simp only [onParam]
  split
  · exact ⟨rfl, rfl, rfl⟩
  · split
    · exact ⟨rfl, rfl, rfl⟩
    · exact keepsHead_updFirst _ _ x

mutual
theorem calm_updNode {P : Node → Bool} {g : Node → Node} (hg : ∀ b x, Calm b x → Calm b (g x)) :
    ∀ {n m : Node} {b : Bool}, Calm b n → updNode P g n = some m → Calm b m
  | .text s, m, b, _, h => by cases h
  | .tag n a ks, m, b, hn, h => by
    rw [updNode] at h
    split at h
    · cases h; exact hg b _ hn
    · obtain ⟨ks', hk, rfl⟩ := Option.map_eq_some_iff.1 h
      exact ⟨hn.1, hn.2.1, calm_updKids hg hn.2.2 hk⟩
theorem calm_updKids {P : Node → Bool} {g : Node → Node} (hg : ∀ b x, Calm b x → Calm b (g x)) :
    ∀ {ks ks' : List Node} {b : Bool}, CalmKids b ks → updKids P g ks = some ks' → CalmKids b ks'
  | [], _, b, _, h => by cases h
  | x :: r, ks', b, hk, h => by
    rw [updKids] at h
    split at h
    · rename_i y hy
      cases h
      exact ⟨calm_updNode hg hk.1 hy, hk.2⟩
    · obtain ⟨r', hr, rfl⟩ := Option.map_eq_some_iff.1 h
      exact ⟨hk.1, calm_updKids hg hk.2 hr⟩
end

theorem calm_updFirst {P : Node → Bool} {g : Node → Node} (hg : ∀ b x, Calm b x → Calm b (g x)) {n : Node} {b : Bool}
    (h : Calm b n) : Calm b (updFirst P g n) := by
  cases n with
  | text s => trivial
  | tag n a ks =>
    rw [updFirst]
    cases e : updKids P g ks with
    | none => exact h
    | some ks' => exact ⟨h.1, h.2.1, calm_updKids hg h.2.2 e⟩

theorem calm_replaceValue {v : Node} (hv : Calm true v) {p : Node} {b : Bool} (h : Calm b p) :
    Calm b (replaceValue v p) := by
  cases p with
  | text s => trivial
  | tag n a ks =>
    refine ⟨h.1, h.2.1, calmKids_iff.2 fun k hk => ?_⟩
    obtain ⟨x, hx, rfl⟩ := List.mem_map.1 hk
    split
    · exact hv.weaken _
    · exact calmKids_iff.1 h.2.2 x hx

theorem calm_actAt {g : Node → Node × Res Unit} : ∀ {p : Place} {d x : Node} {b : Bool}, nodeAt p d = some x →
    (∀ b, Calm b x → Calm b (g x).1) → Calm b d → Calm b (actAt g p d).1
  | [], d, x, b, h, hg, hd => by injection h with h; subst h; exact hg b hd
  | i :: p, .text s, x, b, h, hg, hd => trivial
  | i :: p, .tag n a ks, x, b, h, hg, hd => by
    rw [actAt]
    rw [nodeAt_cons, Node.kids] at h
    cases hi : ks[i]? with
    | none => exact hd
    | some y =>
      rw [hi] at h
      refine ⟨hd.1, hd.2.1, calmKids_iff.2 fun k hk => ?_⟩
      rcases List.mem_or_eq_of_mem_set hk with hk | rfl
      · exact calmKids_iff.1 hd.2.2 k hk
      · exact calm_actAt h hg (calmKids_iff.1 hd.2.2 y (List.mem_of_getElem? hi))

theorem Calm.tagKids {n k : Node} {b : Bool} (h : Calm b n) (hk : k ∈ n.tagKids) : ∃ c, Calm c k ∧ (b = true → c = true) := by
  cases n with
  | text s => simp [Node.tagKids, Node.kids] at hk
  | tag n a ks => exact ⟨_, calmKids_iff.1 h.2.2 k (List.mem_filter.1 hk).1, fun e => by rw [e]; rfl⟩

theorem calm_unAnimate {F : Fl} {ctx : Ctx} {v : Node} (h : Calm true v) (hok : (unAnimate F ctx v).2 = .ok ()) :
    Calm true (unAnimate F ctx v).1 := by
  rw [unAnimate] at hok ⊢
  split at hok
  · rename_i hn; rw [if_pos hn]; exact h
  rename_i hn
  rw [if_neg hn]
  cases hw : waypoints F ctx v with
  | error e => simp only [hw] at hok; cases hok
  | ok ws =>
    simp only [hw] at hok ⊢
    cases ws with
    | nil => cases hok
    | cons w ws =>
      simp only at hok ⊢
      split at hok
      · rename_i hp
        rw [if_pos hp]
        obtain ⟨k, hk, hv⟩ := waypoints_val hw w (by simp)
        obtain ⟨c, h1, h2⟩ := h.tagKids hk
        obtain ⟨c', h3, h4⟩ := h1.tagKids hv
        rw [h4 (h2 rfl)] at h3
        exact h3
      · cases hok

theorem AText.calm {v : Node} (h : AText v) : Calm true v := by
  obtain ⟨ws, rfl, hws⟩ := h
  refine ⟨by simp, by simp, calmKids_iff.2 fun k hk => ?_⟩
  obtain ⟨w, hw, rfl⟩ := List.mem_map.1 hk
  obtain ⟨s, hs⟩ := hws w hw
  rw [Waypoint.tag, hs]
  refine ⟨by simp, by simp, calmKids_iff.2 fun k hk => ?_⟩
  rw [List.mem_singleton.1 hk]
  exact ⟨by simp, by simp, trivial, trivial⟩

/-! ## Documents without what is in text layers -/

mutual
/-- Text layers emptied. -/
def bared : Node → Node
  | .text s => .text s
  | .tag n a ks => .tag n a (if isTextHead n a then [] else baredKids ks)
def baredKids : List Node → List Node
  | [] => []
  | x :: r => bared x :: baredKids r
end

theorem baredKids_map (ks : List Node) : baredKids ks = ks.map bared := by
  induction ks with
  | nil => rfl
  | cons x r ih => rw [baredKids, ih]; rfl

theorem bared_head (n : Node) : (bared n).name = n.name ∧ (bared n).attrs = n.attrs ∧ (bared n).isTag = n.isTag := by
  cases n <;> exact ⟨rfl, rfl, rfl⟩

theorem bared_actAt {g : Node → Node × Res Unit} (hg : KeepsHead fun x => (g x).1) : ∀ {p : Place} {d x : Node},
    nodeAt p d = some x → IsLayer "text" x → bared (actAt g p d).1 = bared d
  | [], d, x, h, hx => by
    injection h with h
    subst h
    cases d with
    | text s => simp [IsLayer, Node.name] at hx
    | tag n a ks =>
      have hh : isTextHead n a = true := by
        have h1 : n = "layer" := hx.1
        have h2 : a.get "type" = _ := hx.2
        simp [isTextHead, h1, h2]
      obtain ⟨ks', hk⟩ := hg.tag n a ks
      rw [actAt, hk, bared, bared, if_pos hh, if_pos hh]
  | i :: p, .text s, x, h, hx => rfl
  | i :: p, .tag n a ks, x, h, hx => by
    rw [actAt]
    rw [nodeAt_cons, Node.kids] at h
    cases hi : ks[i]? with
    | none => rfl
    | some y =>
      rw [hi] at h
      have ih := bared_actAt hg (d := y) h hx
      simp only [bared, baredKids_map, List.map_set, ih]
      congr 1
      split
      · rfl
      · obtain ⟨hlt, rfl⟩ := List.getElem?_eq_some_iff.1 hi
        rw [← List.getElem_map bared (h := by simpa using hlt)]
        exact List.set_getElem_self _

mutual
theorem calm_bared : ∀ {n : Node} {b : Bool}, Calm b n → Calm b (bared n)
  | .text _, _, _ => trivial
  | .tag n a ks, b, h => by
    refine ⟨h.1, h.2.1, ?_⟩
    split
    · trivial
    · exact calmKids_bared h.2.2
theorem calmKids_bared : ∀ {ks : List Node} {b : Bool}, CalmKids b ks → CalmKids b (baredKids ks)
  | [], _, _ => trivial
  | _ :: _, _, h => ⟨calm_bared h.1, calmKids_bared h.2⟩
end

/-- Whether something is a layer, as the file has it. -/
def layerAt (x : Place × Node) : Bool := x.2.name = "layer"

mutual
theorem no_layers_at : ∀ {n : Node} {p : Place}, Calm true n → (placesOf p n).filter layerAt = []
  | .text _, _, _ => rfl
  | .tag n a ks, p, h => by
    have e : layerAt (p, Node.tag n a ks) = false := decide_eq_false (h.2.1 rfl)
    rw [placesOf, List.filter_cons, e, if_neg (by simp)]
    exact no_layers_in h.2.2
theorem no_layers_in : ∀ {ks : List Node} {p : Place} {i : ℕ}, CalmKids true ks → (placesIn p i ks).filter layerAt = []
  | [], _, _, _ => rfl
  | x :: r, p, i, h => by
    rw [placesIn, List.filter_append, no_layers_at h.1, no_layers_in h.2]; rfl
end

mutual
theorem layers_bared : ∀ {n : Node} {p : Place} {b : Bool}, Calm b n →
    (placesOf p (bared n)).filter layerAt = ((placesOf p n).filter layerAt).map (Prod.map id bared)
  | .text _, _, _, _ => rfl
  | .tag n a ks, p, b, h => by
    have hk : (placesIn p 0 (if isTextHead n a then [] else baredKids ks)).filter layerAt =
        ((placesIn p 0 ks).filter layerAt).map (Prod.map id bared) := by
      cases hh : isTextHead n a with
      | true =>
        have hk := h.2.2
        rw [hh, Bool.or_true] at hk
        rw [no_layers_in hk]; rfl
      | false => exact layersIn_bared h.2.2
    rw [placesOf, bared, placesOf, List.filter_cons, List.filter_cons, hk]
    by_cases hl : n = "layer"
    · have e : ∀ ks', layerAt (p, Node.tag n a ks') = true := fun _ => decide_eq_true hl
      rw [e, e, if_pos rfl, if_pos rfl, List.map_cons]
      simp only [Prod.map_apply, id, bared]
    · have e : ∀ ks', layerAt (p, Node.tag n a ks') = false := fun _ => decide_eq_false hl
      rw [e, e, if_neg (by simp), if_neg (by simp)]
theorem layersIn_bared : ∀ {ks : List Node} {p : Place} {i : ℕ} {b : Bool}, CalmKids b ks →
    (placesIn p i (baredKids ks)).filter layerAt = ((placesIn p i ks).filter layerAt).map (Prod.map id bared)
  | [], _, _, _, _ => rfl
  | x :: r, p, i, b, h => by
    rw [placesIn, baredKids, placesIn, List.filter_append, List.filter_append, List.map_append, layers_bared h.1,
      layersIn_bared h.2]
end

/-- The layers in something, with their places. -/
def layersAt (p : Place) (n : Node) : List (Place × Node) := (placesIn p 0 n.kids).filter layerAt

theorem layersAt_bared {n : Node} {p : Place} {b : Bool} (h : Calm b n) :
    layersAt p (bared n) = (layersAt p n).map (Prod.map id bared) := by
  cases n with
  | text s => rfl
  | tag n a ks =>
    rw [layersAt, bared, Node.kids, layersAt, Node.kids]
    cases hh : isTextHead n a with
    | true =>
      have hk := h.2.2
      rw [hh, Bool.or_true] at hk
      rw [no_layers_in hk]; rfl
    | false => exact layersIn_bared h.2.2

/-! ## Finding the groups and their texts -/

theorem no_type_param {n : Node} {b : Bool} (h : Calm b n) : findParam "type_".toList n = none := by
  cases hp : findParam "type_".toList n with
  | none => rfl
  | some p =>
    exfalso
    obtain ⟨h1, h2, h3⟩ := findParam_some hp
    have hp' : (p) ∈ (placesIn [] 0 n.kids).map Prod.snd := by
      rw [placesIn_nodes]
      exact List.mem_filter.2 ⟨h3, h2⟩
    obtain ⟨⟨q, p'⟩, hq, rfl⟩ := List.mem_map.1 hp'
    obtain ⟨r, -, -, hr, -⟩ := mem_places.1 hq
    obtain ⟨c, hc, -⟩ := h.at hr
    cases p' with
    | text s => cases h2
    | tag nm a ks =>
      apply hc.1
      rw [isParam, Bool.and_eq_true] at h1
      exact ⟨of_decide_eq_true h1.1, of_decide_eq_true h1.2⟩

theorem matcher_known {F : Fl} {d : Defaults} {x : Node} {ty : String} {lc c : LClass} {b : Bool}
    (hreg : layerRegistry.fromName ty.toList = .ok lc) (hshow : hidesType lc = false)
    (hx : x.name = "layer") (hc : layerOf x = .ok c) (hcalm : Calm b x) :
    matcher F d .none [("type_", .str ty.toList)] x = .ok (decide (x.attrs.get "type" = some (.str ty.toList))) := by
  rw [matcher, if_neg (by simpa using hx)]
  simp only [asLayer, hc]
  have hc' := hc
  rw [layerOf] at hc'
  split at hc'
  · cases hc'
  · rename_i s hs
    by_cases hh : hidesType c = true
    · obtain ⟨s', hs'⟩ := layerOf_mem hc
      have htf := type_field _ hs'
      have hne : s ≠ ty.toList := by
        rintro rfl
        rw [hreg] at hc'
        injection hc' with hc'
        subst hc'
        rw [hshow] at hh; cases hh
      cases hl : c.fields.lookup "type_" with
      | none => simp [hidesType, hl] at hh
      | some f =>
        simp only [hl] at htf
        split at htf
        · next e => cases e
        · next d' e =>
          injection e with e
          subst e
          simp only [meetsAny, tryAttr, layerAttr, hl, getField, fieldValue, no_type_param hcalm, hs]
          simp [hne]
        · cases htf
    · rw [meets_type (by simpa using hh) hs, hs]
      simp
  · cases hc'

/-- Layers of a type. -/
def ofType (ty : String) (x : Place × Node) : Bool := x.2.attrs.get "type" = some (.str ty.toList)

/-- Every layer is of a known type. -/
def Known (n : Node) : Prop := ∀ p, ∀ x ∈ layersAt p n, ∃ c, layerOf x.2 = .ok c

theorem filter_places {ty : String} {l : List (Place × Node)} :
    (l.filter layerAt).filter (ofType ty) = l.filter fun x => layerAt x && ofType ty x := by
  rw [List.filter_filter]
  apply List.filter_congr
  intro x _
  rw [Bool.and_comm]

theorem findAllAt_known {F : Fl} {d : Defaults} {a : FindArgs} {kw : List (String × Want)} {ty : String} {lc : LClass}
    (h1 : posArg a = .ok (.none, kw)) (h2 : criteria a kw = .ok [("type_", .str ty.toList)])
    (hreg : layerRegistry.fromName ty.toList = .ok lc) (hshow : hidesType lc = false) {p : Place} {n : Node} {b : Bool}
    (hcalm : Calm b n) (hk : Known n) :
    findAllAt F d a p n = .ok (((layersAt p n).filter (ofType ty)).map fun x => (x.1, (lc, x.2))) := by
  have hm : ∀ x ∈ placesIn p 0 n.kids, matcher F d .none [("type_", .str ty.toList)] x.2 =
      .ok (layerAt x && ofType ty x) := by
    rintro ⟨q, x⟩ hx
    by_cases hl : x.name = "layer"
    · obtain ⟨c, hc⟩ := hk p (q, x) (List.mem_filter.2 ⟨hx, by simpa [layerAt] using hl⟩)
      obtain ⟨r, -, -, hr, -⟩ := mem_places.1 hx
      obtain ⟨c', hc', -⟩ := hcalm.at hr
      rw [matcher_known hreg hshow hl hc hc']
      simp [layerAt, hl, ofType]
    · rw [matcher, if_pos hl]
      simp [layerAt, hl]
  have hf : filterRes (fun x : Place × Node => matcher F d .none [("type_", .str ty.toList)] x.2) (placesIn p 0 n.kids) =
      .ok ((layersAt p n).filter (ofType ty)) := by
    refine filterRes_ok.2 ⟨fun x hx => ⟨_, hm x hx⟩, ?_⟩
    rw [layersAt, filter_places]
    apply List.filter_congr
    intro x hx
    rw [hm x hx]
  simp only [findAllAt, h1, h2, hf]
  have := mapRes_map_ok' (f := asLayerAt) (g := id) (h := fun x : Place × Node => (x.1, (lc, x.2)))
    (l := (layersAt p n).filter (ofType ty)) (by
      rintro ⟨q, x⟩ hx
      have ht := (List.mem_filter.1 hx).2
      have ht : x.attrs.get "type" = some (.str ty.toList) := by simpa [ofType] using ht
      simp only [id, asLayerAt, asLayer, layerOf, ht, hreg])
  rwa [List.map_id] at this

theorem mapRes_map' {α β γ : Type} (f : β → Res γ) (g : α → β) (l : List α) :
    mapRes f (l.map g) = mapRes (fun x => f (g x)) l := by
  induction l with
  | nil => rfl
  | cons x l ih => rw [List.map_cons, mapRes, mapRes, ih]

theorem mapRes_congr' {α β : Type} {f g : α → Res β} {l : List α} (h : ∀ x ∈ l, f x = g x) :
    mapRes f l = mapRes g l := by
  induction l with
  | nil => rfl
  | cons x l ih => rw [mapRes, mapRes, h x (by simp), ih fun y hy => h y (by simp [hy])]

theorem getDesc_bared (F : Fl) (x : Node) : getDesc F (bared x) = getDesc F x := by
  rw [getDesc, getDesc, (bared_head x).2.1]

theorem group_known : layerRegistry.fromName "group".toList = .ok lcGroup ∧ hidesType lcGroup = false := by
  decide +kernel

theorem text_known : layerRegistry.fromName "text".toList = .ok lcText ∧ hidesType lcText = false := by
  decide +kernel

theorem Known.at {n x : Node} (h : Known n) {p : List ℕ} (hx : nodeAt p n = some x) : Known x := by
  rintro q ⟨r, y⟩ hy
  obtain ⟨hy, hl⟩ := List.mem_filter.1 hy
  obtain ⟨r', -, hr0, hr, ht⟩ := mem_places.1 hy
  refine h [] (p ++ r', y) (List.mem_filter.2 ⟨mem_places.2 ⟨p ++ r', rfl, by simp [hr0], ?_, ht⟩, hl⟩)
  rw [nodeAt_append, hx]; exact hr

theorem layersAt_node {p : Place} {n : Node} {x : Place × Node} (h : x ∈ layersAt p n) :
    ∃ r, r ≠ [] ∧ nodeAt r n = some x.2 := by
  obtain ⟨r, -, h0, hr, -⟩ := mem_places.1 (List.mem_filter.1 h).1
  exact ⟨r, h0, hr⟩

theorem Known.bared {n : Node} {b : Bool} (hc : Calm b n) : Known (bared n) ↔ Known n := by
  constructor
  · intro h p x hx
    obtain ⟨c, h'⟩ := h p (Prod.map id Sang.bared x) (by rw [layersAt_bared hc]; exact List.mem_map_of_mem hx)
    refine ⟨c, ?_⟩
    rwa [Prod.map_snd, layerOf, (bared_head x.2).2.1, ← layerOf] at h'
  · intro h p x hx
    rw [layersAt_bared hc] at hx
    obtain ⟨y, hy, rfl⟩ := List.mem_map.1 hx
    obtain ⟨c, h'⟩ := h p y hy
    exact ⟨c, by rwa [Prod.map_snd, layerOf, (bared_head y.2).2.1, ← layerOf]⟩

theorem ofType_bared {ty : String} {n : Node} {p : Place} {b : Bool} (h : Calm b n) :
    (layersAt p (bared n)).filter (ofType ty) = ((layersAt p n).filter (ofType ty)).map (Prod.map id bared) := by
  rw [layersAt_bared h, List.filter_map]
  congr 1
  apply List.filter_congr
  intro x _
  simp only [Function.comp_apply, ofType, Prod.map_snd, (bared_head x.2).2.1]

theorem bwGroup_bared {F : Fl} (d d' : Defaults) (i : ℕ) (desc : Str) {n : Node} {b : Bool} (hc : Calm b n) (hk : Known n) :
    bwGroup F d i desc (bared n) = bwGroup F d' i desc n := by
  rw [bwGroup, bwGroup, findAllAt_layers F d _ [] (bared n), findAllAt_layers F d' _ [] n,
    findAllAt_known text_targets.1 text_targets.2 text_known.1 text_known.2 hc hk,
    findAllAt_known text_targets.1 text_targets.2 text_known.1 text_known.2 (calm_bared hc) ((Known.bared hc).2 hk)]
  simp only [ofType_bared hc, List.map_map]
  have e : ((layersAt [] n).filter (ofType "text")).map
      (Prod.snd ∘ (fun x : Place × Node => (x.1, (lcText, x.2))) ∘ Prod.map id bared) =
      (((layersAt [] n).filter (ofType "text")).map (Prod.snd ∘ fun x : Place × Node => (x.1, (lcText, x.2)))).map
        fun x => (x.1, bared x.2) := by
    rw [List.map_map]; rfl
  rw [e, ← List.map_reverse, List.zipIdx_map, mapRes_map']
  simp only [Prod.map_fst, Prod.map_snd, getDesc_bared, id]

theorem bwWantedAt_bared (F : Fl) (l : List (Place × Node)) (c : LClass) :
    bwWantedAt F ((l.map (Prod.map id bared)).map fun x => (x.1, (c, x.2))) =
      (bwWantedAt F (l.map fun x => (x.1, (c, x.2)))).map (Prod.map id bared) := by
  rw [bwWantedAt, bwWantedAt]
  generalize "bywords".toList = pre
  induction l with
  | nil => rfl
  | cons x l ih =>
    simp only [List.map_cons, List.filterMap_cons, Prod.map_snd, Prod.map_fst, getDesc_bared, ih, id]
    cases getDesc F x.2 with
    | none => rfl
    | some s =>
      simp only
      split
      · rename_i h; split at h
        · cases h
        · rename_i h'; rw [if_neg h']
      · rename_i y h; split at h
        · rename_i h'
          injection h with h
          subst h
          rw [if_pos h']; rfl
        · cases h

theorem wantedAt_node {F : Fl} {n : Node} {p : Place} {c : LClass} {x : Place × Node}
    (h : x ∈ bwWantedAt F (((layersAt p n).filter (ofType "group")).map fun x => (x.1, (c, x.2)))) :
    ∃ r, nodeAt r n = some x.2 := by
  obtain ⟨c', h, -⟩ := mem_wantedAt h
  obtain ⟨y, hy, e⟩ := List.mem_map.1 h
  obtain ⟨r, -, hr⟩ := layersAt_node (List.mem_filter.1 hy).1
  injection e with e1 e2
  injection e2 with e2 e3
  rw [e3] at hr
  exact ⟨r, hr⟩

/-- What is in text layers doesn't matter to which groups there are. -/
theorem bwGroups_bared {F : Fl} (d d' : Defaults) {n : Node} {b : Bool} (hc : Calm b n) (hk : Known n) :
    bwGroups F d (bared n) = bwGroups F d' n := by
  rw [bwGroups, bwGroups, findAllAt_layers F d _ [] (bared n), findAllAt_layers F d' _ [] n,
    findAllAt_known group_targets.1 group_targets.2 group_known.1 group_known.2 hc hk,
    findAllAt_known group_targets.1 group_targets.2 group_known.1 group_known.2 (calm_bared hc) ((Known.bared hc).2 hk)]
  simp only [wantedAt_wanted, ofType_bared hc, bwWantedAt_bared]
  have e : ∀ l : List (Place × Node), ((l.map (Prod.map id bared)).map fun p => ((getDesc F p.2).getD [], p.2)) =
      (l.map fun p => ((getDesc F p.2).getD [], p.2)).map fun x => (x.1, bared x.2) := by
    intro l
    simp only [List.map_map]
    apply List.map_congr_left
    intro x _
    simp only [Function.comp_apply, Prod.map_snd, getDesc_bared]
  rw [e, List.zipIdx_map, mapRes_map']
  have e2 : ∀ l : List ((Str × Node) × ℕ), (∀ x ∈ l, ∃ r, nodeAt r n = some x.1.2) →
      mapRes (fun x : (Str × Node) × ℕ => bwGroup F d (Prod.map (fun x => (x.1, bared x.2)) id x).2
        (Prod.map (fun x : Str × Node => (x.1, bared x.2)) id x).1.1
        (Prod.map (fun x : Str × Node => (x.1, bared x.2)) id x).1.2) l =
      mapRes (fun x : (Str × Node) × ℕ => bwGroup F d' x.2 x.1.1 x.1.2) l := by
    intro l hl
    apply mapRes_congr'
    intro x hx
    obtain ⟨r, hr⟩ := hl x hx
    obtain ⟨c, hcx, -⟩ := hc.at hr
    exact bwGroup_bared d d' _ _ hcx (hk.at hr)
  rw [e2]
  rintro ⟨⟨s, x⟩, i⟩ hx
  have hx := List.mem_of_getElem? (List.mem_zipIdx_iff_getElem?.1 hx)
  obtain ⟨y, hy, e⟩ := List.mem_map.1 hx
  obtain ⟨r, hr⟩ := wantedAt_node hy
  injection e with _ e
  rw [e] at hr
  exact ⟨r, hr⟩

theorem bwTextsAt_bared {F : Fl} (d d' : Defaults) (p : Place) {n : Node} {b : Bool} (hc : Calm b n) (hk : Known n) :
    bwTextsAt F d (p, bared n) = bwTextsAt F d' (p, n) := by
  simp only [bwTextsAt, findAllAt_known text_targets.1 text_targets.2 text_known.1 text_known.2 hc hk,
    findAllAt_known text_targets.1 text_targets.2 text_known.1 text_known.2 (calm_bared hc) ((Known.bared hc).2 hk),
    ofType_bared hc, List.map_map]
  rfl

/-- Nor to where they are. -/
theorem bwPlaces_bared {F : Fl} (d d' : Defaults) {n : Node} {b : Bool} (hc : Calm b n) (hk : Known n) :
    bwPlaces F d (bared n) = bwPlaces F d' n := by
  rw [bwPlaces, bwPlaces,
    findAllAt_known group_targets.1 group_targets.2 group_known.1 group_known.2 hc hk,
    findAllAt_known group_targets.1 group_targets.2 group_known.1 group_known.2 (calm_bared hc) ((Known.bared hc).2 hk)]
  simp only [ofType_bared hc, bwWantedAt_bared, mapRes_map']
  apply mapRes_congr'
  intro x hx
  obtain ⟨r, hr⟩ := wantedAt_node hx
  obtain ⟨c, hcx, -⟩ := hc.at hr
  exact bwTextsAt_bared d d' x.1 hcx (hk.at hr)

theorem known_of_groups {F : Fl} {d : Defaults} {n : Node} {gs : List BGroup} (h : bwGroups F d n = .ok gs) : Known n := by
  obtain ⟨ys, hf, -⟩ := groups_from h
  simp only [findAllAt, group_targets.1, group_targets.2] at hf
  split at hf
  · cases hf
  rename_i l hl
  rintro p ⟨q, x⟩ hx
  obtain ⟨hx, hname⟩ := List.mem_filter.1 hx
  obtain ⟨r, -, h0, hr, ht⟩ := mem_places.1 hx
  obtain ⟨b, hb⟩ := (filterRes_ok.1 hl).1 (r, x) (mem_places.2 ⟨r, rfl, h0, hr, ht⟩)
  have hname : x.name = "layer" := of_decide_eq_true hname
  rw [matcher, if_neg (by simpa using hname)] at hb
  simp only at hb ⊢
  cases hc : layerOf x with
  | ok c => exact ⟨c, rfl⟩
  | error e => simp only [asLayer, hc] at hb; cases hb

/-! ## Putting one text for another -/

/-- A layer with another text. -/
def putText (u : Node) (y : Node) : Node := updFirst (isParam "text".toList) (replaceValue u) y

mutual
/-- Whether there is something to change doesn't depend on the change. -/
theorem updNode_some_iff {P : Node → Bool} {g g' : Node → Node} : ∀ n : Node,
    (updNode P g n).isSome = (updNode P g' n).isSome
  | .text s => rfl
  | .tag n a ks => by
    rw [updNode, updNode]
    split
    · rfl
    · rw [Option.isSome_map, Option.isSome_map, updKids_some_iff (g := g) (g' := g') ks]
theorem updKids_some_iff {P : Node → Bool} {g g' : Node → Node} : ∀ ks : List Node,
    (updKids P g ks).isSome = (updKids P g' ks).isSome
  | [] => rfl
  | x :: r => by
    have h := updNode_some_iff (P := P) (g := g) (g' := g') x
    have hr := updKids_some_iff (P := P) (g := g) (g' := g') r
    rw [updKids, updKids]
    cases h1 : updNode P g x <;> cases h2 : updNode P g' x <;> rw [h1, h2] at h <;> simp_all
end

mutual
theorem updNode_twice {P : Node → Bool} {g g' : Node → Node} (hg : ∀ n a ks, ∃ ks', g (.tag n a ks) = .tag n a ks')
    (hP : ByHead P) : ∀ {n m : Node}, updNode P g n = some m → updNode P g' m = updNode P (fun x => g' (g x)) n
  | .text s, m, h => by cases h
  | .tag n a ks, m, h => by
    rw [updNode] at h
    by_cases hp : P (.tag n a ks) = true
    · rw [if_pos hp] at h
      injection h with h
      obtain ⟨ks', hk⟩ := hg n a ks
      rw [hk] at h
      subst h
      rw [updNode, updNode, if_pos hp, if_pos (by rw [hP.2 n a ks' ks]; exact hp), hk]
    · rw [if_neg hp] at h
      cases hu : updKids P g ks with
      | none => rw [hu] at h; cases h
      | some ks' =>
        rw [hu] at h
        injection h with h
        subst h
        rw [updNode, updNode, if_neg hp, if_neg (by rw [hP.2 n a ks' ks]; exact hp), updKids_twice hg hP hu]
theorem updKids_twice {P : Node → Bool} {g g' : Node → Node} (hg : ∀ n a ks, ∃ ks', g (.tag n a ks) = .tag n a ks')
    (hP : ByHead P) : ∀ {ks ms : List Node}, updKids P g ks = some ms → updKids P g' ms = updKids P (fun x => g' (g x)) ks
  | [], ms, h => by cases h
  | x :: r, ms, h => by
    rw [updKids] at h
    cases hx : updNode P g x with
    | some y =>
      rw [hx] at h
      injection h with h
      subst h
      rw [updKids, updKids, updNode_twice hg hP hx]
      cases hy : updNode P (fun x => g' (g x)) x with
      | some z => rfl
      | none =>
        exfalso
        have := updNode_some_iff (P := P) (g := g) (g' := fun x => g' (g x)) x
        rw [hx, hy] at this
        simp at this
    | none =>
      rw [hx] at h
      simp only at h
      cases hr : updKids P g r with
      | none => rw [hr] at h; cases h
      | some r' =>
        rw [hr] at h
        injection h with h
        subst h
        have e1 : updNode P g' x = none := by
          have := updNode_some_iff (P := P) (g := g) (g' := g') x
          rw [hx] at this
          simpa using this
        have e2 : updNode P (fun x => g' (g x)) x = none := by
          have := updNode_some_iff (P := P) (g := g) (g' := fun x => g' (g x)) x
          rw [hx] at this
          simpa using this
        rw [updKids, updKids, e1, e2, updKids_twice hg hP hr]
end

theorem putText_twice {u u' : Node} (hu : u.isTag = true) (y : Node) : putText u' (putText u y) = putText u' y := by
  have hrep : ∀ x, replaceValue u' (replaceValue u x) = replaceValue u' x := by
    intro x
    cases x with
    | text s => rfl
    | tag n a ks =>
      simp only [replaceValue, Node.kids, Node.setKids, List.map_map]
      congr 1
      apply List.map_congr_left
      intro k _
      simp only [Function.comp_apply]
      by_cases hk : k.isTag = true
      · rw [if_pos hk, if_pos hk, if_pos hu]
      · rw [if_neg hk, if_neg hk]
  cases y with
  | text s => rfl
  | tag n a ks =>
    rw [putText, putText, putText, updFirst, updFirst]
    cases hk : updKids (isParam "text".toList) (replaceValue u) ks with
    | none =>
      rfl
    | some ks' =>
      rw [Option.getD_some, updFirst, updKids_twice (fun n a ks => ⟨_, rfl⟩) (byHead_isParam _) hk]
      have := updKids_some_iff (P := isParam "text".toList) (g := replaceValue u)
        (g' := fun x => replaceValue u' (replaceValue u x)) ks
      simp only [hrep] at this ⊢
      rw [hk] at this
      cases hk' : updKids (isParam "text".toList) (fun x => replaceValue u' x) ks with
      | none => rw [hk'] at this; simp at this
      | some ks'' => rfl

theorem getParam_place {f : Str} {y v : Node} {c : VCls} (h : getParam f y = .ok (c, v)) :
    ∃ q i, nodeAt (q ++ [i]) y = some v ∧
      ∀ m, updFirst (isParam f) (replaceValue m) y = (actAt (fun _ => (m, .ok ())) (q ++ [i]) y).1 := by
  rw [getParam] at h
  split at h
  · cases h
  next p hp =>
  split at h
  · cases h
  next s c0 u hv =>
  injection h with h
  injection h with e1 e2
  subst e1; subst e2
  obtain ⟨q, i, -, h2, -, h3⟩ := value_place hp hv
  exact ⟨q, i, h2, h3⟩

theorem putText_own {y v : Node} {c : VCls} (h : getParam "text".toList y = .ok (c, v)) : putText v y = y := by
  obtain ⟨q, i, h1, h2⟩ := getParam_place h
  rw [putText, h2, actAt_congr (g' := fun n => (n, .ok ())) h1 rfl, actAt_keep h1]

theorem onParam_put {g : Node → Node × Res Unit} {y v : Node} {c : VCls} (h : getParam "text".toList y = .ok (c, v)) :
    (onParam "text".toList (fun _ => g) y).1 = putText (g v).1 y := by
  rw [getParam] at h
  split at h
  · cases h
  next p hp =>
  split at h
  · cases h
  next s c0 u hv =>
  injection h with h
  injection h with e1 e2
  subst e1; subst e2
  simp only [onParam, hp, hv]
  rfl

/-- What is so of a document made from `b` by changing the texts of items. -/
structure Kept (tbl : List (List Place)) (b e : Node) : Prop where
  calm : Calm false e
  bare : bared e = bared b
  text : ∀ x p, placeOf tbl x = some p → ∃ y, nodeAt p e = some y ∧ IsLayer "text" y
  rest : ∀ q, (¬ ∃ x p, placeOf tbl x = some p ∧ p <+: q) → shapeAt q e = shapeAt q b
  out : ∀ x p z, placeOf tbl x = some p → nodeAt p b = some z → itemText tbl e x = none → nodeAt p e = some z
  own : ∀ x p z u, placeOf tbl x = some p → nodeAt p b = some z → itemText tbl e x = some u →
    nodeAt p e = some (putText u z)

theorem kept_refl {tbl : List (List Place)} {b : Node} (hc : Calm false b)
    (ht : ∀ x p, placeOf tbl x = some p → ∃ y, nodeAt p b = some y ∧ IsLayer "text" y) : Kept tbl b b := by
  refine ⟨hc, rfl, ht, fun _ _ => rfl, fun x p z hp hz _ => hz, fun x p z u hp hz hu => ?_⟩
  obtain ⟨p', y, c, hp', hy, hv⟩ := itemText_some.1 hu
  rw [hp] at hp'
  injection hp' with hp'
  subst hp'
  rw [hz] at hy
  injection hy with hy
  subst hy
  rw [putText_own hv, hz]

theorem isLayer_keep {g : Node → Node} (hg : KeepsHead g) {y : Node} {ty : String} (h : IsLayer ty y) : IsLayer ty (g y) := by
  obtain ⟨-, h1, h2⟩ := hg y
  rw [IsLayer, h1, h2]
  exact h

theorem item_tag {tbl : List (List Place)} {e v : Node} {x : ℕ × ℕ} (hv : itemText tbl e x = some v) : v.isTag = true := by
  obtain ⟨p, y, c, -, -, h⟩ := itemText_some.1 hv
  rw [getParam] at h
  split at h
  · cases h
  next pm hpm =>
  split at h
  · cases h
  next s c0 u hu =>
  injection h with h
  injection h with e1 e2
  subst e1; subst e2
  simp only [nameAndValue] at hu
  split at hu
  · cases hu
  split at hu
  · cases hu
  · split at hu
    · next w hw =>
      split at hu
      · cases hu
      · injection hu with hu; injection hu with _ hu; injection hu with _ hu
        subst hu
        have : w ∈ pm.tagKids := by rw [hw]; simp
        exact (List.mem_filter.1 this).2
    · cases hu
  · cases hu

theorem Kept.step {tbl : List (List Place)} (ha : Apart' tbl) {b e : Node} (h : Kept tbl b e) {x : ℕ × ℕ} {v : Node}
    (hv : itemText tbl e x = some v) {g : Node → Node × Res Unit} (h1 : (g v).1.isTag = true) {c : VCls}
    (h2 : fromTag (g v).1 = .ok c) (h3 : Calm true v → Calm true (g v).1) : Kept tbl b (onText tbl x g e).1 := by
  obtain ⟨-, s2, s3⟩ := onText_step ha hv h1 h2
  obtain ⟨p, y, cy, hp, hy, hyv⟩ := itemText_some.1 hv
  obtain ⟨y', hy', hyt⟩ := h.text x p hp
  rw [hy] at hy'
  injection hy' with hy'
  subst hy'
  have ho : onText tbl x g e = actAt (onParam "text".toList fun _ => g) p e := by simp only [onText, hp]
  rw [ho] at s2 s3 ⊢
  obtain ⟨b1, -⟩ := actAt_at (g := onParam "text".toList fun _ => g) hy
  have hvc : Calm true v := by
    obtain ⟨q, i, hq, -⟩ := getParam_place hyv
    obtain ⟨c, hc, -⟩ := h.calm.at hy
    exact hc.below hyt (by simp) hq
  have hother : ∀ x' p', placeOf tbl x' = some p' → x' ≠ x →
      nodeAt p' (actAt (onParam "text".toList fun _ => g) p e).1 = nodeAt p' e := fun x' p' hp' hne =>
    actAt_apart (ha x x' p p' (Ne.symm hne) hp hp')
  refine ⟨calm_actAt hy ?_ h.calm, ?_, ?_, ?_, ?_, ?_⟩
  · intro b' hb
    rw [onParam_put hyv]
    exact calm_updFirst (fun _ _ hx => calm_replaceValue (h3 hvc) hx) hb
  · rw [bared_actAt (keepsHead_onParam _ _) hy hyt, h.bare]
  · intro x' p' hp'
    by_cases hx : x' = x
    · subst hx
      rw [hp] at hp'
      injection hp' with hp'
      subst hp'
      exact ⟨_, b1, isLayer_keep (keepsHead_onParam "text".toList fun _ => g) hyt⟩
    · rw [hother x' p' hp' hx]
      exact h.text x' p' hp'
  · intro q hq
    rw [← h.rest q hq]
    apply actAt_other
    intro z r _ hqr
    exact absurd ⟨x, p, hp, ⟨r, hqr.symm⟩⟩ hq
  · intro x' p' z hp' hz hn
    have hx : x' ≠ x := by
      rintro rfl
      rw [s2] at hn
      cases hn
    rw [hother x' p' hp' hx]
    rw [s3 x' hx] at hn
    exact h.out x' p' z hp' hz hn
  · intro x' p' z u hp' hz hu
    by_cases hx : x' = x
    · subst hx
      rw [hp] at hp'
      injection hp' with hp'
      subst hp'
      rw [s2] at hu
      injection hu with hu
      subst hu
      have hys := h.own x' p z v hp hz hv
      rw [hy] at hys
      injection hys with hys
      rw [b1, onParam_put hyv]
      conv_lhs => rw [hys]
      rw [putText_twice (item_tag hv)]
    · rw [hother x' p' hp' hx]
      rw [s3 x' hx] at hu
      exact h.own x' p' z u hp' hz hu

theorem shape_ext : ∀ {e e' : Node}, (∀ q, shapeAt q e = shapeAt q e') → e = e' := by
  suffices h : ∀ (k : ℕ) (e e' : Node), sizeOf e ≤ k → (∀ q, shapeAt q e = shapeAt q e') → e = e' from
    fun {e e'} => h _ e e' le_rfl
  intro k
  induction k with
  | zero => intro e e' hk; cases e <;> simp at hk
  | succ k ih =>
    intro e e' hk h
    have h0 := h []
    simp only [shapeAt, nodeAt, Option.map_some, Option.some.injEq] at h0
    cases e with
    | text s =>
      cases e' with
      | text s' => simpa [shape] using h0
      | tag n' a' ks' => simp [shape] at h0
    | tag n a ks =>
      cases e' with
      | text s' => simp [shape] at h0
      | tag n' a' ks' =>
        simp only [shape, Shape.element.injEq] at h0
        obtain ⟨rfl, rfl, hl⟩ := h0
        congr 1
        apply List.ext_getElem hl
        intro i hi hi'
        apply ih
        · have := List.sizeOf_lt_of_mem (List.getElem_mem hi)
          simp at hk
          omega
        · intro q
          have := h (i :: q)
          simp only [shapeAt, nodeAt_cons, Node.kids, List.getElem?_eq_getElem hi, List.getElem?_eq_getElem hi'] at this
          exact this

/-- Documents made from the same one by changing the texts of items are the same if those texts are. -/
theorem Kept.ext {tbl : List (List Place)} {b e e' : Node} (hb : Kept tbl b b) (h : Kept tbl b e) (h' : Kept tbl b e')
    (ht : ∀ x, itemText tbl e x = itemText tbl e' x) : e = e' := by
  have hat : ∀ x p, placeOf tbl x = some p → nodeAt p e = nodeAt p e' := by
    intro x p hp
    obtain ⟨z, hz, -⟩ := hb.text x p hp
    cases hx : itemText tbl e x with
    | none => rw [h.out x p z hp hz hx, h'.out x p z hp hz ((ht x).symm.trans hx)]
    | some u => rw [h.own x p z u hp hz hx, h'.own x p z u hp hz ((ht x).symm.trans hx)]
  apply shape_ext
  intro q
  by_cases hq : ∃ x p, placeOf tbl x = some p ∧ p <+: q
  · obtain ⟨x, p, hp, r, rfl⟩ := hq
    rw [shapeAt, shapeAt, nodeAt_append, nodeAt_append, hat x p hp]
  · rw [h.rest q hq, h'.rest q hq]

theorem Kept.clear {F : Fl} {ctx : Ctx} {tbl : List (List Place)} (ha : Apart' tbl) {b : Node} {l : List (ℕ × ℕ)} {e : Node}
    (h : Kept tbl b e) (hl : ∀ x ∈ l, ∃ v, itemText tbl e x = some v ∧ Ready F ctx v) :
    Kept tbl b (clearTexts F ctx tbl l e).1 := by
  induction l generalizing e with
  | nil => exact h
  | cons y l ih =>
    obtain ⟨v, hv, hr⟩ := hl y (by simp)
    obtain ⟨h1, h2, h3⟩ := onText_step ha (g := unAnimate F ctx) hv hr.2.1 (fromTag_string (ourType_legal hr.2))
    rw [hr.1] at h1
    have ho : onText tbl y (unAnimate F ctx) e = ((onText tbl y (unAnimate F ctx) e).1, .ok ()) := Prod.ext rfl h1
    have hc : clearTexts F ctx tbl (y :: l) e = clearTexts F ctx tbl l (onText tbl y (unAnimate F ctx) e).1 := by
      rw [clearTexts, ho]
    rw [hc]
    refine ih (h.step ha hv hr.2.1 (fromTag_string (ourType_legal hr.2)) fun hcv => calm_unAnimate hcv hr.1) ?_
    intro x hx
    by_cases hxy : x = y
    · subst hxy
      exact ⟨_, h2, hr.again⟩
    · obtain ⟨w, hw, hrw⟩ := hl x (by simp [hx])
      exact ⟨w, by rw [h3 x hxy, hw], hrw⟩

theorem Kept.lines {F : Fl} {ctx : Ctx} {tbl : List (List Place)} (ha : Apart' tbl) {b : Node} {letters : Bool}
    {gs : List BGroup} {lines : List SubLine} {dict ws : List WordTiming} {no no' : List Str} {e : Node}
    (h : Kept tbl b e) (hm : matchLines F letters gs dict no lines = .ok (ws, no'))
    (ht : ∀ x, Touched gs lines x → ∃ v, itemText tbl e x = some v ∧ Ready F ctx v) :
    Kept tbl b (matchLinesDoc F ctx tbl letters gs dict lines e).1 := by
  classical
  induction lines generalizing dict no e with
  | nil => exact h
  | cons l lines ih =>
    have hsub : ∀ x, Touched gs lines x → Touched gs (l :: lines) x := by
      rintro x ⟨l', hl', h⟩
      exact ⟨l', by simp [hl'], h⟩
    rw [matchLines] at hm
    rcases firstMatch_cases F letters gs l with ⟨hu, hf⟩ | ⟨hu, g, hg, hf⟩
    · simp only [hf] at hm
      have heq : matchLinesDoc F ctx tbl letters gs dict (l :: lines) e =
          matchLinesDoc F ctx tbl letters gs dict lines e := by
        rw [matchLinesDoc, firstMatchDoc_eq.1 hu]
      rw [heq]
      exact ih h hm fun x hx => ht x (hsub x hx)
    · rw [hf] at hm
      cases hw : bwMatches F letters (tidy l.text) l.duration l.start g with
      | error er => rw [hw] at hm; cases hm
      | ok o =>
        cases o with
        | none =>
          have := (c68_matches_iff F letters (tidy l.text) l.duration l.start g).1 hw
          obtain ⟨a, b, hab, -, h2⟩ := hg
          rw [tidy_normal] at this
          exact absurd h2 this
        | some ws' =>
          rw [hw] at hm
          simp only at hm
          have hready : ∀ x ∈ g.texts.map BText.item, ∃ v, itemText tbl e x = some v ∧ Ready F ctx v := by
            intro x hx
            obtain ⟨t, htm, rfl⟩ := List.mem_map.1 hx
            exact ht _ ⟨l, by simp, g, hg, t, htm, rfl⟩
          obtain ⟨c1, c2⟩ := clearTexts_spec (F := F) (ctx := ctx) ha hready
          have hfd := firstMatchDoc_eq (F := F) (ctx := ctx) (tbl := tbl) (letters := letters) (gs := gs) (e := e) |>.2 g ws' hg hw c1
          have heq : matchLinesDoc F ctx tbl letters gs dict (l :: lines) e =
              matchLinesDoc F ctx tbl letters gs (ws'.foldl (fun d w => putWord w d) dict) lines
                (clearTexts F ctx tbl (g.texts.map BText.item) e).1 := by
            rw [matchLinesDoc, hfd]
          rw [heq]
          refine ih (h.clear ha hready) hm ?_
          intro x hx
          obtain ⟨v, hv, hr⟩ := ht x (hsub x hx)
          rw [c2 x]
          split
          · exact ⟨_, by rw [hv]; rfl, hr.again⟩
          · exact ⟨v, hv, hr⟩

theorem Kept.items {F : Fl} (hF : F.Lawful) {ctx : Ctx} {r : ℚ} (hf : readFps F ctx.root = .ok (some r))
    (hp : ctx.hasParent = true) {tbl : List (List Place)} (ha : Apart' tbl) {b : Node} {words : List WordTiming}
    (hw : ∀ w ∈ words, F.rep w.time ∧ Plain10 w.time) {l : List (ℕ × ℕ)} (hn : l.Nodup) {e : Node}
    (h : Kept tbl b e) (hl : ∀ x ∈ l, ∃ v, itemText tbl e x = some v ∧ Legal "string".toList v) :
    Kept tbl b (adjustItems F ctx tbl words l e).1 := by
  induction l generalizing e with
  | nil => exact h
  | cons y l ih =>
    obtain ⟨hy, hn⟩ := List.nodup_cons.1 hn
    obtain ⟨v, hv, hr⟩ := hl y (by simp)
    obtain ⟨a1, a2⟩ := c93_adjust_partial hF hf hp hr y (words := words) fun w hw' _ => hw w hw'
    obtain ⟨h1, h2, h3⟩ := onText_step ha (g := adjustText F ctx y words) hv a2.tag (fromTag_string a2.type)
    rw [a1] at h1
    have ho : onText tbl y (adjustText F ctx y words) e = ((onText tbl y (adjustText F ctx y words) e).1, .ok ()) :=
      Prod.ext rfl h1
    have hc : adjustItems F ctx tbl words (y :: l) e =
        adjustItems F ctx tbl words l (onText tbl y (adjustText F ctx y words) e).1 := by
      rw [adjustItems, ho]
    rw [hc]
    refine ih hn (h.step ha hv a2.tag (fromTag_string a2.type) fun _ => (aText_adjust hr a1).calm) ?_
    intro x hx
    obtain ⟨w, hw', hrw⟩ := hl x (by simp [hx])
    exact ⟨w, by rw [h3 x (by rintro rfl; exact hy hx), hw'], hrw⟩

/-! ## The program -/

theorem words_touched {F : Fl} {letters : Bool} {gs : List BGroup} {lines : List SubLine} {words : List WordTiming}
    {no : List Str} (hs : bywords F letters gs lines = .ok (words, no)) : ∀ w ∈ words, Touched gs lines w.item := by
  intro w hwm
  obtain ⟨-, per, hper, hall⟩ := c69_last_word_wins hs
  obtain ⟨a, b, e, -⟩ := (hall w).1 hwm
  have hmem : w ∈ per.flatMap fun o => o.getD [] := by rw [e]; simp
  obtain ⟨o, ho, hwo⟩ := List.mem_flatMap.1 hmem
  obtain ⟨l, hl, hlo⟩ := mapRes_mem hper ho
  rcases firstMatch_cases F letters gs l with ⟨_, h'⟩ | ⟨_, g, hgo, h'⟩
  · rw [h'] at hlo
    injection hlo with hlo
    subst hlo
    simp at hwo
  · rw [h'] at hlo
    cases o with
    | none => simp at hwo
    | some ws =>
      have hsh : (w.text, w.item) ∈ g.shown letters := by
        rw [← bwMatches_texts hlo]
        exact List.mem_map.2 ⟨w, hwo, rfl⟩
      obtain ⟨t, htm, hst⟩ := List.mem_flatMap.1 hsh
      obtain ⟨s, -, hst⟩ := List.mem_map.1 hst
      injection hst with _ hst
      exact ⟨l, hl, g, hgo, t, htm, hst⟩

open Classical in
/-- What `adjust` makes of the texts, and what it keeps. -/
theorem adjust_summary {F : Fl} (hF : F.Lawful) (d : Defaults) {perm : List (ℕ × ℕ) → List (ℕ × ℕ)}
    (hperm : ∀ l, (perm l).Perm l) (letters : Bool) (lines : List SubLine) {n b : Node} {gs : List BGroup}
    (hg : bwGroups F d n = .ok gs) {tbl : List (List Place)} (ht : bwPlaces F d n = .ok tbl) (ha : Apart' tbl)
    {words : List WordTiming} {no : List Str}
    (hs : bywords F letters gs lines = .ok (words, no)) {rate : ℚ} (hf : readFps F (animRoot n) = .ok (some rate))
    (htime : ∀ w ∈ words, Plain10 w.time)
    (hready : ∀ x, Touched gs lines x → ∃ v, itemText tbl n x = some v ∧ Ready F (textCtx n) v)
    (hk : Kept tbl b n) :
    (adjust F d perm letters lines n).2 = .ok () ∧ Kept tbl b (adjust F d perm letters lines n).1 ∧
    ∀ x, itemText tbl (adjust F d perm letters lines n).1 x =
      if ∃ w ∈ words, w.item = x then
        (itemText tbl n x).map fun v => (adjustText F (textCtx n) x words (unAnimate F (textCtx n) v).1).1
      else if Touched gs lines x then (itemText tbl n x).map fun v => (unAnimate F (textCtx n) v).1
      else itemText tbl n x := by
  have htouch := words_touched hs
  have hs0 := hs
  simp only [bywords] at hs
  split at hs
  · cases hs
  next dict no' hm =>
  injection hs with hs
  injection hs with hw hno
  subst hno
  obtain ⟨m1, m2⟩ := matchLinesDoc_spec ha (ctx := textCtx n) hm hready
  have mk := hk.lines ha (ctx := textCtx n) hm hready
  have hmemI : ∀ x, x ∈ itemsOf perm words ↔ ∃ w ∈ words, w.item = x := by
    intro x
    rw [itemsOf, (hperm _).mem_iff, List.mem_dedup, List.mem_map]
  have hnd : (itemsOf perm words).Nodup := ((hperm _).nodup_iff).2 (List.nodup_dedup _)
  have hleg : ∀ x ∈ itemsOf perm words, ∃ v, itemText tbl
      (matchLinesDoc F (textCtx n) tbl letters gs [] lines n).1 x = some v ∧ Legal "string".toList v := by
    intro x hx
    obtain ⟨w, hwm, rfl⟩ := (hmemI x).1 hx
    have htx := htouch w hwm
    obtain ⟨v, hv, hr⟩ := hready _ htx
    exact ⟨_, by rw [m2, if_pos htx, hv]; rfl, hr.2⟩
  have hwt : ∀ w ∈ words, F.rep w.time ∧ Plain10 w.time := fun w hwm =>
    ⟨c93_times_are_floats hF hs0 w hwm, htime w hwm⟩
  obtain ⟨a1, a2⟩ := adjustItems_spec hF (ctx := textCtx n) hf rfl ha hwt hnd hleg
  have ak := mk.items hF (ctx := textCtx n) hf rfl ha hwt hnd hleg
  have hadj : adjust F d perm letters lines n =
      adjustItems F (textCtx n) tbl words (itemsOf perm words)
        (matchLinesDoc F (textCtx n) tbl letters gs [] lines n).1 := by
    have hml : matchLinesDoc F (textCtx n) tbl letters gs [] lines n =
        ((matchLinesDoc F (textCtx n) tbl letters gs [] lines n).1, .ok dict) := Prod.ext rfl m1
    simp only [adjust, hg, ht]
    rw [hml]
    simp only [hw]
  rw [hadj]
  refine ⟨a1, ak, fun x => ?_⟩
  rw [a2 x, m2 x]
  by_cases hx : ∃ w ∈ words, w.item = x
  · rw [if_pos ((hmemI x).2 hx), if_pos hx]
    obtain ⟨w, hwm, rfl⟩ := hx
    rw [if_pos (htouch w hwm), Option.map_map]
    rfl
  · rw [if_neg fun h => hx ((hmemI x).1 h), if_neg hx]

theorem setAll_some {m : TMap} {q : ℚ} (l : List (ℚ × Entry)) (h : m q ≠ none) : m.setAll l q ≠ none := by
  induction l generalizing m with
  | nil => exact h
  | cons p l ih =>
    refine ih (m := m.set p.1 p.2) ?_
    rw [TMap.set]
    split
    · simp
    · exact h

theorem held_legal (s : Str) : Legal "string".toList (.tag "string" [] [.text s]) := by
  have hnew : newValue double .string (.str s) = .ok (.tag "string" [] [.text s]) := rfl
  have := newValue_legal hnew (by simp)
  rwa [show (emptyTag VCls.string).name = "string" from rfl] at this

/-- A text once adjusted can be adjusted again. -/
theorem aText_ready {F : Fl} {ctx : Ctx} (hp : ctx.hasParent = true) {v : Node} (h : AText v) {m : TMap}
    (ht : TimelineIs F ctx "string".toList v m) (hm : m 0 ≠ none) : Ready F ctx v := by
  obtain ⟨ws, hws, -, hl⟩ := ht.read
  have hn : v.name = "animated" := by
    obtain ⟨us, rfl, -⟩ := h
    rfl
  cases ws with
  | nil =>
    cases he : m 0 with
    | none => exact absurd he hm
    | some e =>
      obtain ⟨w, hw, -⟩ := (hl 0 e).1 he
      simp at hw
  | cons w ws =>
    obtain ⟨s, hs⟩ := h.vals hws w (by simp)
    rw [Ready, unAnimate, if_neg (by simpa using hn), hws]
    simp only [hp, if_true]
    rw [hs]
    exact ⟨trivial, held_legal s⟩

theorem animRoot_of_bared {n e : Node} (h : bared e = bared n) : animRoot e = animRoot n := by
  have h1 := (bared_head e).1
  have h2 := (bared_head e).2.1
  rw [h, (bared_head n).1] at h1
  rw [h, (bared_head n).2.1] at h2
  rw [animRoot, animRoot, h1, h2]

theorem textCtx_of_bared {n e : Node} (h : bared e = bared n) : textCtx e = textCtx n := by
  rw [textCtx, textCtx, animRoot_of_bared h]

theorem groups_of_bared {F : Fl} (d d' : Defaults) {n e : Node} (hc : Calm false n) (hc' : Calm false e)
    (h : bared e = bared n) {gs : List BGroup} (hg : bwGroups F d n = .ok gs) {tbl : List (List Place)}
    (ht : bwPlaces F d n = .ok tbl) : bwGroups F d' e = .ok gs ∧ bwPlaces F d' e = .ok tbl := by
  have hk := known_of_groups hg
  have hk' : Known e := (Known.bared hc').1 (by rw [h]; exact (Known.bared hc).2 hk)
  constructor
  · rw [← bwGroups_bared d d' hc' hk', h, bwGroups_bared d d hc hk, hg]
  · rw [← bwPlaces_bared d d' hc' hk', h, bwPlaces_bared d d hc hk, ht]

/-- No layer is in a text layer. -/
def TextLayersApart (n : Node) : Prop :=
  ∀ p q x y, nodeAt p n = some x → IsLayer "text" x → q ≠ [] → nodeAt q x = some y → y.name ≠ "layer"

theorem TextLayersApart.none {n : Node} (h : TextLayersApart n) : NoneInAnother (IsLayer "text") n := by
  have key : ∀ p q x y, nodeAt p n = some x → nodeAt q n = some y → IsLayer "text" x → IsLayer "text" y → p ≠ q →
      ¬ p <+: q := by
    rintro p _ x y hp hq hx hy hne ⟨r, rfl⟩
    rw [nodeAt_append, hp] at hq
    exact h p r x y hp hx (by rintro rfl; simp at hne) hq hy.1
  exact fun p q x y hp hq hx hy hne => ⟨key p q x y hp hq hx hy hne, key q p y x hq hp hy hx hne.symm⟩

theorem texts_ready {F : Fl} {d : Defaults} {lines : List SubLine} {n : Node} {gs : List BGroup}
    (hg : bwGroups F d n = .ok gs) {tbl : List (List Place)} (ht : bwPlaces F d n = .ok tbl)
    (htext : ∀ p x, Matched F (lines.map SubLine.text) n p → nodeAt p n = some x →
      ∃ c v, getParam "text".toList x = .ok (c, v) ∧ (unAnimate F (textCtx n) v).2 = .ok () ∧
        Legal "string".toList (unAnimate F (textCtx n) v).1) :
    ∀ x, Touched gs lines x → ∃ v, itemText tbl n x = some v ∧ Ready F (textCtx n) v := by
  rintro x ⟨l, hl, g, hgo, t, htm, rfl⟩
  obtain ⟨i, gp, gn, ps, h0, hat, hB, hfull, hi, hts⟩ := group_info hg ht (goesTo_mem hgo)
  obtain ⟨j, r, z, hit, hj, hr0, hrx, hz, -⟩ := hts t htm
  have hp : placeOf tbl t.item = some (gp ++ r) := by
    rw [placeOf, hit]; simp only [hi, hj]
  have hzn : nodeAt (gp ++ r) n = some z := by rw [nodeAt_append, hat]; exact hrx
  obtain ⟨_, _, _, _, hsay⟩ := id hgo
  obtain ⟨c, v, hv, hr⟩ := htext (gp ++ r) z
    (item_matched hg ht (goesTo_mem hgo) hl (by rw [tidy_normal, fullText_eq]; exact hsay) htm hp) hzn
  exact ⟨v, itemText_some.2 ⟨_, z, c, hp, hzn, hv⟩, hr⟩

theorem kept_start {F : Fl} {d : Defaults} {n : Node} {tbl : List (List Place)} (ht : bwPlaces F d n = .ok tbl)
    (hc : Calm false n) : Kept tbl n n := by
  refine kept_refl hc ?_
  rintro ⟨i, j⟩ p hp
  obtain ⟨ys, gp, gn, zs, r, x, -, -, hat, -, -, -, hr, hx, hxl⟩ := placeOf_info ht hp
  exact ⟨x, by rw [hr, nodeAt_append, hat]; exact hx, hxl⟩

/-- C139. Running `adjust` again, with subtitles that say again what they said the first time: what it makes of the
animation is what it would have made had it not been run before. `words` and `words'` are the schedules the first
and second subtitles give (see C65 to C69); each layer with a text in the first has one in the second.

This is under the conditions under which `adjust` is known to succeed (see C126), as long as no layer is in a text
layer and no parameter is called "type_". -/
theorem c139_again_partial {F : Fl} (hF : F.Lawful) (d d' : Defaults) {perm perm' : List (ℕ × ℕ) → List (ℕ × ℕ)}
    (hperm : ∀ l, (perm l).Perm l) (hperm' : ∀ l, (perm' l).Perm l) (letters letters' : Bool)
    (lines lines' : List SubLine) {n : Node} {gs : List BGroup}
    (hg : bwGroups F d n = .ok gs) {words words' : List WordTiming} {no no' : List Str}
    (hs : bywords F letters gs lines = .ok (words, no)) (hs' : bywords F letters' gs lines' = .ok (words', no'))
    (hsame : ∀ l ∈ lines, ∃ l' ∈ lines', normal l'.text = normal l.text)
    (hitems : ∀ w ∈ words, ∃ w' ∈ words', w'.item = w.item)
    {rate : ℚ} (hf : readFps F (animRoot n) = .ok (some rate))
    (htime : ∀ w ∈ words, Plain10 w.time) (htime' : ∀ w ∈ words', Plain10 w.time)
    (h1 : TextLayersApart n) (h2 : NoneInAnother (BywordsGroup F) n)
    (h3 : ∀ p x, nodeAt p n = some x → ¬ IsParam "type_" x)
    (htext : ∀ p x, Matched F (lines'.map SubLine.text) n p → nodeAt p n = some x →
      ∃ c v, getParam "text".toList x = .ok (c, v) ∧ (unAnimate F (textCtx n) v).2 = .ok () ∧
        Legal "string".toList (unAnimate F (textCtx n) v).1) :
    (adjust F d perm letters lines n).2 = .ok () ∧
    adjust F d' perm' letters' lines' (adjust F d perm letters lines n).1 = adjust F d' perm' letters' lines' n := by
  classical
  obtain ⟨tbl, ht⟩ := places_exist hg
  have ha := places_apart ht h1.none h2
  have hcalm := (calm_of h3 h1).1
  have hk := kept_start ht hcalm
  have hready' := texts_ready hg ht htext
  have hsub : ∀ x, Touched gs lines x → Touched gs lines' x := by
    rintro x ⟨l, hl, g, ⟨a, b, hab, hn1, hn2⟩, hx⟩
    obtain ⟨l', hl', he⟩ := hsame l hl
    exact ⟨l', hl', g, ⟨a, b, hab, by rw [he]; exact hn1, by rw [he]; exact hn2⟩, hx⟩
  have hready := fun x hx => hready' x (hsub x hx)
  obtain ⟨r1, k1, i1⟩ := adjust_summary hF d hperm letters lines hg ht ha hs hf htime hready hk
  refine ⟨r1, ?_⟩
  set m := (adjust F d perm letters lines n).1
  -- the other way
  obtain ⟨hg', ht'⟩ := groups_of_bared d d' hcalm hcalm rfl hg ht
  obtain ⟨r2, k2, i2⟩ := adjust_summary hF d' hperm' letters' lines' hg' ht' ha hs' hf htime' hready' hk
  -- the second run
  obtain ⟨hgm, htm⟩ := groups_of_bared d d' hcalm k1.calm k1.bare hg ht
  have hctx := textCtx_of_bared k1.bare
  have hadj : ∀ x v, (∃ w ∈ words, w.item = x) → itemText tbl n x = some v →
      (adjustText F (textCtx n) x words (unAnimate F (textCtx n) v).1).2 = .ok () ∧
      Ready F (textCtx n) (adjustText F (textCtx n) x words (unAnimate F (textCtx n) v).1).1 := by
    rintro x v ⟨w, hw, rfl⟩ hv
    obtain ⟨v', hv', hr⟩ := hready _ (words_touched hs w hw)
    rw [hv] at hv'
    injection hv' with hv'
    subst hv'
    obtain ⟨a1, a2⟩ := c93_adjust_partial hF (ctx := textCtx n) hf rfl hr.2 w.item (words := words)
      fun w hwm _ => ⟨c93_times_are_floats hF hs w hwm, htime w hwm⟩
    exact ⟨a1, aText_ready rfl (aText_adjust hr.2 a1) a2 (setAll_some _ (by simp [TMap.set]))⟩
  obtain ⟨r3, k3, i3⟩ := adjust_summary hF d' hperm' letters' lines' hgm htm ha hs'
    (by rw [animRoot_of_bared k1.bare]; exact hf) htime' (b := n) (by
      intro x hx
      obtain ⟨v, hv, hr⟩ := hready' x hx
      rw [hctx, i1 x, hv]
      split
      · next hw => exact ⟨_, rfl, (hadj x v hw hv).2⟩
      · split
        · exact ⟨_, rfl, hr.again⟩
        · exact ⟨_, rfl, hr⟩) k1
  refine Prod.ext (hk.ext k3 k2 fun x => ?_) (r3.trans r2.symm)
  rw [i3 x, i2 x, hctx, i1 x]
  by_cases hw' : ∃ w ∈ words', w.item = x
  · rw [if_pos hw', if_pos hw']
    obtain ⟨w, hwm, rfl⟩ := hw'
    obtain ⟨v, hv, hr⟩ := hready' _ (words_touched hs' w hwm)
    rw [hv]
    split
    · next hw =>
      simp only [Option.map_some, Option.some.injEq]
      rw [adjustText_any hF (ctx := textCtx n) hf rfl (hadj _ v hw hv).2.2 hr.2]
    · split
      · simp only [Option.map_some, Option.some.injEq]
        rw [unAnimate_legal hr.2]
      · rfl
  · have hw : ¬ ∃ w ∈ words, w.item = x := by
      rintro ⟨w, hwm, rfl⟩
      exact hw' (hitems w hwm)
    rw [if_neg hw', if_neg hw', if_neg hw]
    by_cases htx : Touched gs lines x
    · rw [if_pos htx, if_pos (hsub x htx), if_pos (hsub x htx)]
      obtain ⟨v, hv, hr⟩ := hready x htx
      rw [hv]
      simp only [Option.map_some, Option.some.injEq]
      rw [unAnimate_legal hr.2]
    · rw [if_neg htx]

/-- C139. What `adjust` makes of an animation depends neither on the order in which Python goes through a set
(`perm`) nor on what layers have been looked at before (`d`). -/
theorem c139_order_partial {F : Fl} (hF : F.Lawful) (d d' : Defaults) {perm perm' : List (ℕ × ℕ) → List (ℕ × ℕ)}
    (hperm : ∀ l, (perm l).Perm l) (hperm' : ∀ l, (perm' l).Perm l) (letters : Bool)
    (lines : List SubLine) {n : Node} {gs : List BGroup}
    (hg : bwGroups F d n = .ok gs) {words : List WordTiming} {no : List Str}
    (hs : bywords F letters gs lines = .ok (words, no))
    {rate : ℚ} (hf : readFps F (animRoot n) = .ok (some rate))
    (htime : ∀ w ∈ words, Plain10 w.time)
    (h1 : TextLayersApart n) (h2 : NoneInAnother (BywordsGroup F) n)
    (h3 : ∀ p x, nodeAt p n = some x → ¬ IsParam "type_" x)
    (htext : ∀ p x, Matched F (lines.map SubLine.text) n p → nodeAt p n = some x →
      ∃ c v, getParam "text".toList x = .ok (c, v) ∧ (unAnimate F (textCtx n) v).2 = .ok () ∧
        Legal "string".toList (unAnimate F (textCtx n) v).1) :
    adjust F d' perm' letters lines n = adjust F d perm letters lines n := by
  obtain ⟨tbl, ht⟩ := places_exist hg
  have ha := places_apart ht h1.none h2
  have hcalm := (calm_of h3 h1).1
  have hk := kept_start ht hcalm
  have hready := texts_ready hg ht htext
  obtain ⟨hg', ht'⟩ := groups_of_bared d d' hcalm hcalm rfl hg ht
  obtain ⟨r1, k1, i1⟩ := adjust_summary hF d hperm letters lines hg ht ha hs hf htime hready hk
  obtain ⟨r2, k2, i2⟩ := adjust_summary hF d' hperm' letters lines hg' ht' ha hs hf htime hready hk
  exact Prod.ext (hk.ext k2 k1 fun x => (i2 x).trans (i1 x).symm) (r2.trans r1.symm)

/-- C139. Running it twice is the same as running it once. -/
theorem c139_twice_partial {F : Fl} (hF : F.Lawful) (d d' : Defaults) {perm perm' : List (ℕ × ℕ) → List (ℕ × ℕ)}
    (hperm : ∀ l, (perm l).Perm l) (hperm' : ∀ l, (perm' l).Perm l) (letters : Bool)
    (lines : List SubLine) {n : Node} {gs : List BGroup}
    (hg : bwGroups F d n = .ok gs) {words : List WordTiming} {no : List Str}
    (hs : bywords F letters gs lines = .ok (words, no))
    {rate : ℚ} (hf : readFps F (animRoot n) = .ok (some rate))
    (htime : ∀ w ∈ words, Plain10 w.time)
    (h1 : TextLayersApart n) (h2 : NoneInAnother (BywordsGroup F) n)
    (h3 : ∀ p x, nodeAt p n = some x → ¬ IsParam "type_" x)
    (htext : ∀ p x, Matched F (lines.map SubLine.text) n p → nodeAt p n = some x →
      ∃ c v, getParam "text".toList x = .ok (c, v) ∧ (unAnimate F (textCtx n) v).2 = .ok () ∧
        Legal "string".toList (unAnimate F (textCtx n) v).1) :
    adjust F d' perm' letters lines (adjust F d perm letters lines n).1 =
      ((adjust F d perm letters lines n).1, .ok ()) := by
  obtain ⟨r, h⟩ := c139_again_partial hF d d' hperm hperm' letters letters lines lines hg hs hs
    (fun l hl => ⟨l, hl, rfl⟩) (fun w hw => ⟨w, hw, rfl⟩) hf htime htime h1 h2 h3 htext
  rw [h, c139_order_partial hF d d' hperm hperm' letters lines hg hs hf htime h1 h2 h3 htext]
  exact Prod.ext rfl r

instance (f : String) (n : Node) : Decidable (IsParam f n) := inferInstanceAs (Decidable (_ ∧ _))

/-- The animation of C126's example meets the further conditions. -/
theorem exLyrics_apart : TextLayersApart exLyrics ∧ ∀ p x, nodeAt p exLyrics = some x → ¬ IsParam "type_" x := by
  have htag : ∀ x : Node, x.name ≠ "" → x.isTag = true := by
    intro x h
    cases x with
    | text s => exact absurd rfl h
    | tag a b ks => rfl
  constructor
  · intro p q x y hp hx hq hy hname
    have h : ∀ a ∈ placesOf [] exLyrics, IsLayer "text" a.2 → ∀ b ∈ placesOf [] a.2, b.1 ≠ [] → b.2.name ≠ "layer" := by
      decide +kernel
    exact h (p, x) (mem_placesOf.2 ⟨p, rfl, hp, htag x (by rw [hx.1]; decide)⟩) hx (q, y)
      (mem_placesOf.2 ⟨q, rfl, hy, htag y (by rw [hname]; decide)⟩) hq hname
  · intro p x hp hx
    have h : ∀ a ∈ placesOf [] exLyrics, ¬ IsParam "type_" a.2 := by decide +kernel
    exact h (p, x) (mem_placesOf.2 ⟨p, rfl, hp, htag x (by rw [hx.1]; decide)⟩) hx

/-- It is changed by the first run, and the second leaves it as it then is. -/
example : (adjust double .initial id false exLines exLyrics).1 ≠ exLyrics ∧
    adjust double .initial List.reverse false exLines (adjust double .initial id false exLines exLyrics).1 =
      ((adjust double .initial id false exLines exLyrics).1, .ok ()) := by
  obtain ⟨h1, ⟨words, h2, -, h3⟩, h4, -, h6, h7⟩ := exLyrics_ok
  exact ⟨by decide +kernel, c139_twice_partial double_lawful _ _ (fun _ => .refl _) (fun l => l.reverse_perm) false exLines
    h1 h2 h4 h3 exLyrics_apart.1 h6 exLyrics_apart.2 h7⟩

/-- Its subtitles at other times. -/
def exLater : List SubLine := [⟨5000, 1000, "Hello, world".toList⟩, ⟨9000, 500, "Something else!".toList⟩]

example : ∃ words no, bywords double true [⟨"Bywords 1".toList, [⟨(0, 0), "Hello, World".toList⟩]⟩] exLater = .ok (words, no) ∧
    (∃ w ∈ words, w.item = (0, 0)) ∧ ∀ l ∈ exLines, ∃ l' ∈ exLater, normal l'.text = normal l.text :=
  ⟨_, _, rfl, by decide +kernel, by decide +kernel⟩

/-- A text layer called `s`, with the text `t`. -/
def exSung (s t : String) : Node :=
  .tag "layer" [("type", .str "text".toList), ("desc", .str s.toList)]
    [.tag "param" [("name", .str "text".toList)] [.tag "string" [] [.text t.toList]]]

/-- A group called `s`. -/
def exChoir (s : String) (l : List Node) : Node :=
  .tag "layer" [("type", .str "group".toList), ("desc", .str s.toList)] l

/-- C139. It isn't so of a layer which gets a text the first time and none the second: the text it had before is lost.
Here the second time the words of a line are all to be shown at once, and only the last is. -/
theorem c139_text_lost :
    let n := .tag "canvas" exRoot [exChoir "bywords" [exSung "a" "x", exSung "b" "y"]]
    let m := (adjust double .initial id false [⟨1000, 1000, "b a".toList⟩] n).1
    nodeAt [0, 1] (adjust double .initial id false [⟨1000, 0, "b a".toList⟩] n).1 = some (exSung "b" "y") ∧
    nodeAt [0, 1] (adjust double .initial id false [⟨1000, 0, "b a".toList⟩] m).1 = some (exSung "b" "") := by
  decide +kernel

/-- C139. When a bywords group is in another, what is made of the texts in both can depend on the order in which Python
goes through a set, which is not the same in every run. -/
theorem c139_order_matters :
    let n := .tag "canvas" exRoot [exChoir "bywords 1" [exSung "a" "x", exChoir "bywords 2" [exSung "b" "y"]]]
    let lines := [⟨0, 1000, "b".toList⟩, ⟨5000, 1000, "b a".toList⟩]
    (adjust double .initial id false lines n).2 = .ok () ∧
    (adjust double .initial List.reverse false lines n).2 = .ok () ∧
    (adjust double .initial id false lines n).1 ≠ (adjust double .initial List.reverse false lines n).1 := by
  decide +kernel

end Sang
