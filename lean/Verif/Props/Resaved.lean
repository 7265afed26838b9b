import Verif.Lemmas.TPlain
import Verif.Props.TimeRate

/-! # Timelines after saving and loading again: properties C43, C82 -/

namespace Sang

open Spec

/-! ## C43: waypoints survive saving -/

/-- A time in a waypoint's element that saving keeps, in an animation with frame rate `f`. Either a
time object (put there by this program): at a whole frame, with the animation's frame rate, a whole
number, or a whole number of eighths; or at a whole frame with no rate. Or text (from a file): without tabs or newlines, which
text from a file never has. -/
inductive SavableTime (f : Option ℚ) : AttrV → Prop
  | own {n k : ℕ} (hn : n < 2 ^ 53) (hk : 1 ≤ k) (hk6 : k < 10 ^ 6) (hf : f = some (k:ℚ)) :
      SavableTime f (.t ⟨n, some k⟩)
  | eighths {n a : ℕ} (hn : n < 2 ^ 49) (ha : 0 < a) (ha' : a < 8000) (hf : f = some ((a:ℚ) / 8)) :
      SavableTime f (.t ⟨n, some ((a:ℚ) / 8)⟩)
  | bare {n : ℕ} (hn : n < 10 ^ 6) : SavableTime f (.t ⟨n, none⟩)
  | text {s : Str} (h : ∀ c ∈ s, c ≠ '\r' ∧ c ≠ '\n' ∧ c ≠ '\t') : SavableTime f (.str s)

theorem fps_root {F : Fl} {root : Option Attrs} {r : ℚ} (h : readFps F root = .ok (some r)) :
    ∃ a, root = some a ∧ HasFps F a r := by
  cases root with
  | none => simp [readFps] at h
  | some a =>
    refine ⟨a, rfl, ?_⟩
    simp only [readFps] at h
    split at h
    · simp at h
    · next v hv =>
      split at h
      · simp at h
      · next x hx =>
        split at h
        · simp at h
        · injection h with h; injection h with h; subst h
          exact ⟨v, hv, hx⟩

theorem new_text {F : Fl} {root : Option Attrs} {f : Option ℚ} (hf : readFps F root = .ok f) (s : Str) :
    T.new F root (.str s) = match parseSpec F f s with
      | .error e => .error e
      | .ok x => .ok ⟨x, f⟩ := by
  simp only [T.new, hf]
  cases parseSpec F f s <;> rfl

/-- A savable time reads the same before and after. -/
theorem savable_reads {F : Fl} (hF : F.Lawful) {root root' : Option Attrs} {f : Option ℚ}
    (hf : readFps F root = .ok f) (hf' : readFps F root' = .ok f) {a : AttrV}
    (h : SavableTime f a) :
    T.new F root' (.str (attrSpaces (a.str' F))) = T.new F root a.toTArg := by
  cases h with
  | @own n k hn hk hk6 hfk =>
    subst hfk
    have hstr := str_eq hF hn hk hk6 false (by simp)
    simp only [Bool.false_eq_true, if_false, one_mul] at hstr
    have hp : Plain (T.str F ⟨n, some (k:ℚ)⟩) := by rw [hstr]; exact specText_plain _ _
    obtain ⟨b, rfl, hb⟩ := fps_root hf'
    simp only [AttrV.str', AttrV.toTArg, attrSpaces_id hp]
    rw [c01_time_text_roundtrip hF b n k hn hk hk6 hb, new_t_nonneg hf rfl (by positivity)]
  | @eighths n a hn ha ha' hfk =>
    subst hfk
    have haq : (1:ℚ) ≤ a := by exact_mod_cast ha
    have haq' : (a:ℚ) < 8000 := by exact_mod_cast ha'
    obtain ⟨hq, hw⟩ := eighths_written hF ha hn
    have hp := rate_plain hF (Nat.cast_nonneg n) (by positivity) (by linarith) hq hw
    obtain ⟨b, rfl, hb⟩ := fps_root hf'
    simp only [AttrV.str', AttrV.toTArg, attrSpaces_id hp]
    rw [c158_eighths hF b n a ha ha' hn hb, new_t_nonneg hf rfl (by positivity)]
  | @bare n hn =>
    have e : T.str F ⟨n, none⟩ = natStr n ++ ['f'] := by simp [T.str, fmtG_nat hn]
    have hp : Plain (natStr n ++ ['f']) := by
      intro c hc
      rcases List.mem_append.1 hc with h | h
      · exact natStr_plain n c h
      · simp only [List.mem_singleton] at h; subst h; decide
    simp only [AttrV.str', AttrV.toTArg, e, attrSpaces_id hp]
    rw [new_text hf', parseSpec_frames hF f n (lt_trans hn (by norm_num))]
    simp only [T.new, hf, framesOfNumber]
    rw [if_neg (not_lt.2 (by positivity))]
  | @text s h =>
    simp only [AttrV.str', AttrV.toTArg, attrSpaces_id h]
    rw [new_text hf', new_text hf]

/-- A waypoint as it is after saving: the same, with its value saved. -/
def Waypoint.resaved (F : Fl) (w : Waypoint) : Waypoint := {w with val := w.val.reload F}

theorem fromTag_waypoint_reload {F : Fl} (hF : F.Lawful) {root root' : Option Attrs} {f : Option ℚ}
    (hf : readFps F root = .ok f) (hf' : readFps F root' = .ok f) {ty : Str} {n : Node} {w : Waypoint}
    (h : Waypoint.fromTag F root ty n = .ok w)
    (hs : ∀ a, n.attrs.get "time" = some a → SavableTime f a) :
    Waypoint.fromTag F root' (attrSpaces ty) (n.reload F) = .ok (w.resaved F) ∧ Plain ty := by
  simp only [Waypoint.fromTag] at h
  split at h
  · simp at h
  next hname =>
  split at h
  · simp at h
  next a hget =>
  split at h
  · simp at h
  next t ht =>
  split at h
  · next v hv =>
    split at h
    · simp at h
    next hna =>
    split at h
    · simp at h
    next hty =>
    split at h
    · simp at h
    next c hc =>
    split at h
    · simp at h
    next b hb =>
    split at h
    · simp at h
    next e he =>
    split at h
    · simp at h
    next b' hb' =>
    split at h
    · simp at h
    next e' he' =>
    injection h with h; subst h
    obtain ⟨hfv, hpl⟩ := fromTag_reload (F := F) hna hc
    have hty' : v.name.toList = ty := by simpa using hty
    have hpt : Plain ty := hty' ▸ hpl
    refine ⟨?_, hpt⟩
    have h1 : (n.reload F).attrs.get "time" = some (.str (attrSpaces (a.str' F))) := by
      rw [reload_get, hget]; rfl
    have h2 : (n.reload F).tagKids = [v.reload F] := by rw [reload_tagKids, hv]; rfl
    have h3 : strAttr (n.reload F) "before" = .ok b := by
      rw [reload_strAttr hb, attrSpaces_id (checkInterp_plain hb')]
    have h4 : strAttr (n.reload F) "after" = .ok e := by
      rw [reload_strAttr he, attrSpaces_id (checkInterp_plain he')]
    have h5 : T.new F root' (.str (attrSpaces (a.str' F))) = .ok t := by
      rw [savable_reads hF hf hf' (hs a hget)]; exact ht
    simp only [Waypoint.fromTag, reload_name, if_neg hname, h1, AttrV.toTArg, h5, h2, if_neg hna, hfv,
      h3, h4, hb', he', attrSpaces_id hpt, hty', ne_eq, not_true_eq_false, if_false, Waypoint.resaved]
  · simp at h

theorem putWp_resaved (F : Fl) (w : Waypoint) (ws : List Waypoint) :
    putWp (w.resaved F) (ws.map (Waypoint.resaved F)) = (putWp w ws).map (Waypoint.resaved F) := by
  induction ws with
  | nil => rfl
  | cons x r ih =>
    simp only [List.map_cons, putWp, ih]
    have : (x.resaved F).time.sameKey (w.resaved F).time = x.time.sameKey w.time := rfl
    rw [this]
    split <;> rfl

theorem foldl_putWp_resaved (F : Fl) (ws acc : List Waypoint) :
    (ws.map (Waypoint.resaved F)).foldl (fun d w => putWp w d) (acc.map (Waypoint.resaved F)) =
      (ws.foldl (fun d w => putWp w d) acc).map (Waypoint.resaved F) := by
  induction ws generalizing acc with
  | nil => rfl
  | cons w r ih => simp only [List.map_cons, List.foldl_cons, putWp_resaved, ih]

theorem mapRes_reload {α β γ δ : Type} {f : α → Res β} {g : γ → Res δ} {p : α → γ} {q : β → δ}
    {l : List α} {r : List β} (h : mapRes f l = .ok r)
    (hg : ∀ x ∈ l, ∀ y, f x = .ok y → g (p x) = .ok (q y)) :
    mapRes g (l.map p) = .ok (r.map q) := by
  induction l generalizing r with
  | nil => simp only [mapRes] at h; injection h with h; subst h; rfl
  | cons x l ih =>
    simp only [mapRes] at h
    split at h
    · simp at h
    next y hy =>
    split at h
    · simp at h
    next ys hys =>
    injection h with h; subst h
    simp only [List.map_cons, mapRes, hg x (by simp) y hy,
      ih hys fun z hz => hg z (by simp [hz])]

/-- C43. If an animated value's waypoints can be read, and their times are savable, then after saving
and loading exactly the same waypoints are read: at the same times, with the same interpolations, and
each with its value as saving leaves it. The animation's header is reloaded too (`ctx'`); it must
still have the same frame rate. -/
theorem c43_waypoints_survive_saving {F : Fl} (hF : F.Lawful) {ctx ctx' : Ctx} {f : Option ℚ}
    (hf : readFps F ctx.root = .ok f) (hf' : readFps F ctx'.root = .ok f) {n : Node}
    {ws : List Waypoint} (h : waypoints F ctx n = .ok ws)
    (hs : ∀ x ∈ waypointTags n, ∀ a, x.attrs.get "time" = some a → SavableTime f a) :
    waypoints F ctx' (n.reload F) = .ok (ws.map fun w => {w with val := w.val.reload F}) := by
  have htags : waypointTags (n.reload F) = (waypointTags n).map (Node.reload F) := by
    simp only [waypointTags, reload_name, reload_tagKids]
    split <;> rfl
  simp only [waypoints] at h
  split at h
  · next he =>
    injection h with h; subst h
    simp [waypoints, htags, he]
  · next hne =>
    split at h
    · simp at h
    next ty hty =>
    split at h
    · simp at h
    next l hl =>
    injection h with h; subst h
    have hne' : ¬ waypointTags (n.reload F) = [] := by simpa [htags] using hne
    have hm : mapRes (Waypoint.fromTag F ctx'.root (attrSpaces ty)) ((waypointTags n).map (Node.reload F)) =
        .ok (l.map (Waypoint.resaved F)) :=
      mapRes_reload hl fun x hx w hw => (fromTag_waypoint_reload hF hf hf' hw (hs x hx)).1
    rw [waypoints, if_neg hne']
    simp only [reload_strAttr hty, htags, hm]
    exact congrArg Except.ok (foldl_putWp_resaved F l [])

/-- In particular the times, and what surrounds them, are the same. -/
theorem c43_times_survive_saving {F : Fl} (hF : F.Lawful) {ctx ctx' : Ctx} {f : Option ℚ}
    (hf : readFps F ctx.root = .ok f) (hf' : readFps F ctx'.root = .ok f) {n : Node}
    {ws : List Waypoint} (h : waypoints F ctx n = .ok ws)
    (hs : ∀ x ∈ waypointTags n, ∀ a, x.attrs.get "time" = some a → SavableTime f a) :
    ∃ ws', waypoints F ctx' (n.reload F) = .ok ws' ∧
      ws'.map (fun w => (w.time, w.before, w.after)) = ws.map fun w => (w.time, w.before, w.after) :=
  ⟨_, c43_waypoints_survive_saving hF hf hf' h hs, by simp [Function.comp_def]⟩

/-- C43's hypotheses are met: a timeline at 24 fps with one waypoint from a file and one (at 2s 2f) put
there by the program, saved. -/
example :
    let n : Node := .tag "animated" [("type", .str "real".toList)]
      [.tag "waypoint" [("time", .str "1s".toList), ("before", .str "clamped".toList),
        ("after", .str "auto".toList)] [exReal "1.5"], .text ['\n'],
       .tag "waypoint" [("time", .t ⟨50, some 24⟩), ("before", .str "linear".toList),
        ("after", .str "linear".toList)] [.text ['\r'], exReal "2.5"]]
    waypoints double ⟨some exRoot, true⟩ (n.reload double) =
      .ok [⟨⟨24, some 24⟩, "clamped".toList, "tcb".toList, exReal "1.5"⟩,
           ⟨⟨50, some 24⟩, "linear".toList, "linear".toList, exReal "2.5"⟩] ∧
    ∀ x ∈ waypointTags n, ∀ a, x.attrs.get "time" = some a → SavableTime (some 24) a := by
  refine ⟨by decide +kernel, ?_⟩
  intro x hx a ha
  have hx' := List.mem_filter.1 hx
  simp only [Node.kids, List.mem_cons, List.not_mem_nil, or_false] at hx'
  obtain ⟨rfl | rfl | rfl, ht⟩ := hx'
  · injection ha with ha; subst ha; exact .text (by decide)
  · simp [Node.isTag] at ht
  · injection ha with ha; subst ha
    exact .own (n := 50) (k := 24) (by norm_num) (by norm_num) (by norm_num) (by norm_num)

/-! ## C82: times from another animation -/

/-- The text of a time at `n` frames of an animation with rate `k`, read in an animation with rate
`r`: the whole seconds count at the new rate, and the odd frames stay. -/
theorem read_at_other_rate {F : Fl} (hF : F.Lawful) (root : Attrs) (n k r : ℕ)
    (hn : n < 2 ^ 53) (hk : 1 ≤ k) (hk6 : k < 10 ^ 6) (hr : 1 ≤ r) (hroot : HasFps F root r)
    (hb : n / k * r + n % k ≤ 2 ^ 53) :
    T.new F (some root) (.str (T.str F ⟨n, some (k:ℚ)⟩)) =
      .ok ⟨((n / k * r + n % k : ℕ) : ℚ), some (r:ℚ)⟩ := by
  have hstr := str_eq hF hn hk hk6 false (by simp)
  simp only [Bool.false_eq_true, if_false, one_mul] at hstr
  rw [hstr]
  obtain ⟨ah, am, as, af⟩ := strParts_amt n k
  have hq := hms_sum (n / k)
  set l := strParts n k
  have key := c07_whole_spec_value hF root r hr hroot (mkParts false l) [] (mkParts_valid _ _) (by simp)
    (strParts_distinct n k false) (n / k / 3600 : ℕ) (n / k % 3600 / 60 : ℕ) (n / k % 60 : ℕ) (n % k : ℕ)
    (by rw [amount_mkParts_pos, ah]; exact (Int.cast_natCast _).symm) (by rw [amount_mkParts_pos, am]; exact (Int.cast_natCast _).symm)
    (by rw [amount_mkParts_pos, as]; exact (Int.cast_natCast _).symm) (by rw [amount_mkParts_pos, af]; exact (Int.cast_natCast _).symm)
    (by
      have e : |((n / k / 3600 : ℕ):ℤ) * 3600| + |((n / k % 3600 / 60 : ℕ):ℤ) * 60| + |((n / k % 60 : ℕ):ℤ)|
          = ((n / k : ℕ):ℤ) := by
        rw [abs_of_nonneg (by positivity), abs_of_nonneg (by positivity), abs_of_nonneg (by positivity)]
        exact_mod_cast hq
      rw [e, abs_of_nonneg (by positivity)]
      exact_mod_cast hb)
    (Or.inr (by positivity))
  rw [key]
  have hsec : seconds (mkParts false l) = ((n / k : ℕ):ℚ) := by
    rw [seconds, amount_mkParts_pos, amount_mkParts_pos, amount_mkParts_pos, ah, am, as]
    have : ((n / k / 3600 * 3600 + n / k % 3600 / 60 * 60 + n / k % 60 : ℕ):ℚ) = ((n / k : ℕ):ℚ) := by
      rw [hq]
    rw [← this]; push_cast; ring
  have : frames r (mkParts false l) = ((n / k * r + n % k : ℕ) : ℚ) := by
    rw [frames, hsec, if_neg (not_lt.2 (by positivity)), amount_mkParts_pos, af]
    push_cast; ring
  rw [this]

/-- The element of a static value on which a waypoint is put at a time from another animation. -/
theorem foreign_written {F : Fl} {root : Attrs} {n k : ℕ}
    {c : VCls} {v m : Node} (hm : m.isTag = true) (hs : m.name ≠ "animated") (par : Bool) :
    setItem F ⟨some root, par⟩ c (.t ⟨n, some (k:ℚ)⟩) (.wp ⟨⟨0, none⟩, "linear".toList, "linear".toList, v⟩) m =
      (.tag "animated" [("type", .str m.name.toList)]
        [.tag "waypoint" [("time", .t ⟨n, some (k:ℚ)⟩), ("before", .str "linear".toList),
          ("after", .str "linear".toList)] [v]], .ok ()) := by
  cases m with
  | text s => simp [Node.isTag] at hm
  | tag nm a ks =>
    have h1 : startAnimation ((Node.tag nm a ks).setKids []) =
        .tag "animated" [("type", .str nm.toList)] [] := by
      rw [startAnimation, if_neg (by exact hs)]
      rfl
    have hw : waypoints F ⟨some root, par⟩ (.tag "animated" [("type", .str nm.toList)] []) = .ok [] :=
      waypoints_empty F _ rfl
    have hz : zeroClash ⟨(n:ℚ), some (k:ℚ)⟩ [] = false := by simp [zeroClash]
    have hrc : ∀ w : Waypoint, rateClash [w] = false := by
      intro w; simp only [rateClash, T.fpsDiffer, List.any_cons, List.any_nil, Bool.or_false]
      cases w.time.fps <;> simp
    simp only [setItem, ensureFps, makeWp]
    rw [if_neg hs, h1, hw]
    simp only [hz, Bool.false_eq_true, if_false, putWp]
    rw [setWaypoints, if_neg (by simp), hrc, if_neg (by simp), startAnimation, if_pos (by rfl)]
    rfl

/-- C82, refuted. A waypoint put at a time of another animation (at `n` frames, `k` frames per second)
is read at frame `n` until the animation is saved; after saving and loading, it is elsewhere: the
seconds of the time are reckoned at this animation's rate. -/
theorem c82_foreign_time_moves_on_saving {F : Fl} (hF : F.Lawful) (root : Attrs) (n k r : ℕ)
    (hn : n < 2 ^ 53) (hk : 1 ≤ k) (hk6 : k < 10 ^ 6) (hr : 1 ≤ r) (hroot : HasFps F root r)
    (hb : n / k * r + n % k ≤ 2 ^ 53) (c : VCls) (v m : Node)
    (hv : Legal m.name.toList v) (hm : m.isTag = true) (hs : m.name ≠ "animated") (par : Bool) :
    ∃ m', setItem F ⟨some root, par⟩ c (.t ⟨n, some (k:ℚ)⟩)
        (.wp ⟨⟨0, none⟩, "linear".toList, "linear".toList, v⟩) m = (m', .ok ()) ∧
      waypoints F ⟨some root, par⟩ m' =
        .ok [⟨⟨n, some (r:ℚ)⟩, "linear".toList, "linear".toList, v⟩] ∧
      waypoints F ⟨some root, par⟩ (m'.reload F) =
        .ok [⟨⟨((n / k * r + n % k : ℕ) : ℚ), some (r:ℚ)⟩, "linear".toList, "linear".toList,
          v.reload F⟩] := by
  refine ⟨_, foreign_written hm hs par, ?_, ?_⟩
  · have hr' : (0:ℚ) < r := by exact_mod_cast hr
    have hnew : T.new F (some root) (.t ⟨n, some (k:ℚ)⟩) = .ok ⟨n, some (r:ℚ)⟩ := by
      simp only [T.new, readFps_of hroot hr', framesOfNumber]
      rw [if_neg (not_lt.2 (by positivity))]
    obtain ⟨h1, h2, h3, c', h4⟩ := hv
    have hfrom : Waypoint.fromTag F (some root) m.name.toList
        (.tag "waypoint" [("time", .t ⟨n, some (k:ℚ)⟩), ("before", .str "linear".toList),
          ("after", .str "linear".toList)] [v]) =
        .ok ⟨⟨n, some (r:ℚ)⟩, "linear".toList, "linear".toList, v⟩ := by
      have hk' : (Node.tag "waypoint" [("time", AttrV.t ⟨n, some (k:ℚ)⟩), ("before", .str "linear".toList),
          ("after", .str "linear".toList)] [v]).tagKids = [v] := by simp [tagKids_tag, h1]
      have hi : checkInterp "linear".toList = .ok "linear".toList := by decide +kernel
      set x : Node := .tag "waypoint" [("time", .t ⟨n, some (k:ℚ)⟩), ("before", .str "linear".toList),
          ("after", .str "linear".toList)] [v]
      have e1 : x.name = "waypoint" := rfl
      have e2 : x.attrs.get "time" = some (.t ⟨n, some (k:ℚ)⟩) := rfl
      have e3 : strAttr x "before" = .ok "linear".toList := rfl
      have e4 : strAttr x "after" = .ok "linear".toList := rfl
      simp only [Waypoint.fromTag, e1, e2, hk', AttrV.toTArg, hnew, ne_eq, not_true_eq_false, if_false,
        h2, h3, h4, e3, e4, hi]
    set x : Node := .tag "waypoint" [("time", .t ⟨n, some (k:ℚ)⟩), ("before", .str "linear".toList),
          ("after", .str "linear".toList)] [v]
    have hwt : waypointTags (.tag "animated" [("type", .str m.name.toList)] [x]) = [x] := rfl
    have hty : strAttr (.tag "animated" [("type", .str m.name.toList)] [x]) "type" =
        .ok m.name.toList := rfl
    simp [waypoints, hwt, hty, mapRes, hfrom, putWp]
  · have hplain : Plain m.name.toList := by
      obtain ⟨h1, h2, h3, c', h4⟩ := hv
      rw [← h3]; exact (fromTag_reload (F := F) h2 h4).2
    have hread := read_at_other_rate hF root n k r hn hk hk6 hr hroot hb
    have hstr := str_eq hF hn hk hk6 false (by simp)
    simp only [Bool.false_eq_true, if_false, one_mul] at hstr
    have hp : Plain (T.str F ⟨n, some (k:ℚ)⟩) := by rw [hstr]; exact specText_plain _ _
    obtain ⟨h1, h2, h3, c', h4⟩ := hv
    have hfv := (fromTag_reload (F := F) h2 h4).1
    have hlin : attrSpaces "linear".toList = "linear".toList := attrSpaces_id (by decide)
    have hi : checkInterp "linear".toList = .ok "linear".toList := by decide +kernel
    set x : Node := .tag "waypoint" [("time", .t ⟨n, some (k:ℚ)⟩), ("before", .str "linear".toList),
          ("after", .str "linear".toList)] [v] with hx
    have hfrom : Waypoint.fromTag F (some root) m.name.toList (x.reload F) =
        .ok ⟨⟨((n / k * r + n % k : ℕ) : ℚ), some (r:ℚ)⟩, "linear".toList, "linear".toList, v.reload F⟩ := by
      have hk' : (x.reload F).tagKids = [v.reload F] := by
        rw [reload_tagKids]; simp [hx, tagKids_tag, h1]
      have hb : strAttr (x.reload F) "before" = .ok "linear".toList := by
        rw [reload_strAttr (s := "linear".toList) rfl, hlin]
      have ha : strAttr (x.reload F) "after" = .ok "linear".toList := by
        rw [reload_strAttr (s := "linear".toList) rfl, hlin]
      have ht : (x.reload F).attrs.get "time" = some (.str (T.str F ⟨n, some (k:ℚ)⟩)) := by
        rw [reload_get]
        have : x.attrs.get "time" = some (.t ⟨n, some (k:ℚ)⟩) := rfl
        rw [this]
        simp [AttrV.str', attrSpaces_id hp]
      have hnm : (x.reload F).name = "waypoint" := by rw [reload_name]; rfl
      simp only [Waypoint.fromTag, hnm, ne_eq, not_true_eq_false, if_false, ht, AttrV.toTArg, hread, hk',
        reload_name, h2, h3, hfv, hb, ha, hi]
    have hnm : ((Node.tag "animated" [("type", .str m.name.toList)] [x]).reload F).name = "animated" := by
      rw [reload_name]; rfl
    have hkids : ((Node.tag "animated" [("type", .str m.name.toList)] [x]).reload F).tagKids =
        [x.reload F] := by rw [reload_tagKids]; rfl
    have hty : strAttr ((Node.tag "animated" [("type", .str m.name.toList)] [x]).reload F) "type" =
        .ok m.name.toList := by
      rw [reload_strAttr (s := m.name.toList) rfl, attrSpaces_id hplain]
    simp [waypoints, waypointTags, hnm, hkids, hty, mapRes, hfrom, putWp]

/-- The two times agree exactly if the time is before one second or the rates agree. -/
theorem c82_foreign_time_stays_iff (n k r : ℕ) (hk : 1 ≤ k) :
    n / k * r + n % k = n ↔ n < k ∨ r = k := by
  have h := Nat.div_add_mod' n k
  constructor
  · intro e
    by_cases hn : n < k
    · exact .inl hn
    · right
      have hq : 0 < n / k := Nat.div_pos (not_lt.1 hn) hk
      have : n / k * r = n / k * k := by omega
      exact Nat.eq_of_mul_eq_mul_left hq this
  · rintro (hn | rfl)
    · rw [Nat.div_eq_of_lt hn, Nat.mod_eq_of_lt hn]; simp
    · exact h

/-- C82's hypotheses are met, and the times differ: one second at 30 fps, put in an animation at 24
fps, moves from frame 30 to frame 24. -/
example : HasFps double exRoot (24:ℕ) ∧ 30 / 30 * 24 + 30 % 30 = 24 ∧
    Legal "real".toList (exReal "1.5") :=
  ⟨by exact_mod_cast exRoot_fps, by norm_num, exReal_legal _⟩

end Sang
