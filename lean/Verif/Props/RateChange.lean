import Verif.Props.Resaved
import Verif.Props.Reading
import Verif.Props.Animation

/-!
# C168: changing the frame rate of an animation
-/

namespace Sang

open Spec

namespace Spec

/-- The text gives `a` whole seconds, as hours, minutes and seconds, and `b` frames: in whatever order, and with whatever
blanks. -/
def GivesTime (s : Str) (a b : ℕ) : Prop :=
  ∃ ps tr, ∃ h m sec : ℕ, (∀ p ∈ ps, p.Valid) ∧ (∀ c ∈ tr, isSpace c = true) ∧ Distinct ps ∧ s = specText ps tr ∧
    amount ps .h = h ∧ amount ps .m = m ∧ amount ps .s = sec ∧ amount ps .f = b ∧ h * 3600 + m * 60 + sec = a

end Spec

/-- What a text gives, in frames. -/
theorem gives_new {F : Fl} (hF : F.Lawful) {root : Attrs} {r : ℕ} (hr : 1 ≤ r) (hroot : HasFps F root r) {s : Str} {a b : ℕ}
    (hs : GivesTime s a b) (hb : a * r + b ≤ 2 ^ 53) :
    T.new F (some root) (.str s) = .ok ⟨((a * r + b : ℕ) : ℚ), some (r:ℚ)⟩ := by
  obtain ⟨ps, tr, h, m, sec, hv, ht, hd, rfl, eh, em, es, ef, e⟩ := hs
  have key := c07_whole_spec_value hF root r hr hroot ps tr hv ht hd h m sec b (by rw [eh]; norm_cast) (by rw [em]; norm_cast)
    (by rw [es]; norm_cast) (by rw [ef]; norm_cast)
    (by
      rw [abs_of_nonneg (by positivity), abs_of_nonneg (by positivity), abs_of_nonneg (by positivity),
        abs_of_nonneg (by positivity)]
      rw [← e] at hb
      exact_mod_cast hb)
    (Or.inr (by positivity))
  rw [key]
  have hsec : seconds ps = (a:ℚ) := by
    rw [seconds, eh, em, es, ← e]; push_cast; ring
  have : frames r ps = ((a * r + b : ℕ) : ℚ) := by
    rw [frames, hsec, if_neg (not_lt.2 (by positivity)), ef]; push_cast; ring
  rw [this]

/-- What the library writes for frame `n` gives the whole seconds and the frames past them. -/
theorem gives_str {F : Fl} (hF : F.Lawful) {n k : ℕ} (hn : n < 2 ^ 53) (hk : 1 ≤ k) (hk6 : k < 10 ^ 6) :
    GivesTime (T.str F ⟨n, some (k:ℚ)⟩) (n / k) (n % k) := by
  have hstr := str_eq hF hn hk hk6 false (by simp)
  simp only [Bool.false_eq_true, if_false, one_mul] at hstr
  obtain ⟨ah, am, as, af⟩ := strParts_amt n k
  refine ⟨mkParts false (strParts n k), [], n / k / 3600, n / k % 3600 / 60, n / k % 60, mkParts_valid _ _, by simp,
    strParts_distinct n k false, hstr, ?_, ?_, ?_, ?_, hms_sum (n / k)⟩
  · rw [amount_mkParts_pos, ah]
  · rw [amount_mkParts_pos, am]
  · rw [amount_mkParts_pos, as]
  · rw [amount_mkParts_pos, af]

/-- The header field for the frame rate. -/
def fpsField : HField := ⟨"fps", .float, .float 24⟩

theorem fpsField_mem : fpsField ∈ headerFields := by simp [headerFields, fpsField]

theorem setFps_root {F : Fl} (hF : F.Lawful) {d : Node} (hd : d.isTag = true) (hc : d.name = "canvas") {r : ℕ} (hr : r < 2 ^ 53) :
    ∃ root, animRoot (setHeader F fpsField (.float r) d).1 = some root ∧ HasFps F root r := by
  have e : setHeader F fpsField (.float r) d = (d.setAttr "fps" (.num r), .ok ()) := rfl
  refine ⟨(d.setAttr "fps" (.num r)).attrs, ?_, .num r, ?_, ?_⟩
  · rw [e]; simp [animRoot, canvasRoot, (setAttr_rest d "fps" (.num r)).1, hc]
  · rw [get_setAttr d hd, if_pos rfl]
  · have : F.rnd (r:ℚ) = r := hF.nat _ (by exact_mod_cast hr.le)
    simp only [AttrV.toFloat, this]

/-- C168. After `animation.fps = r`, nothing in the document has changed but that, and a time that is written in whole seconds
and frames, as Synfig and the library do, has moved: its seconds are `r` frames each. -/
theorem c168_reckoned {F : Fl} (hF : F.Lawful) {d : Node} (hd : d.isTag = true) (hc : d.name = "canvas") {r : ℕ} (hr : 1 ≤ r)
    (hr' : r < 2 ^ 53) {s : Str} {a b : ℕ} (hs : GivesTime s a b) (hb : a * r + b ≤ 2 ^ 53) :
    (setHeader F fpsField (.float r) d).2 = .ok () ∧ OnlyAttr "fps" d (setHeader F fpsField (.float r) d).1 ∧
    T.new F (animRoot (setHeader F fpsField (.float r) d).1) (.str s) = .ok ⟨((a * r + b : ℕ) : ℚ), some (r:ℚ)⟩ := by
  obtain ⟨root, h1, h2⟩ := setFps_root hF hd hc hr'
  have h3 := c87_header_roundtrip hF fpsField (.float r) (hF.nat _ (by exact_mod_cast hr'.le)) d hd
  exact ⟨rfl, h3.2.2.2, by rw [h1]; exact gives_new hF hr h2 hs hb⟩

/-- C168. In seconds, it is where it was exactly if it was at a whole second, or the rate is the same. -/
theorem c168_same_moment_iff (a b k r : ℕ) (hk : 1 ≤ k) (hr : 1 ≤ r) :
    ((a * r + b : ℕ) : ℚ) / r = ((a * k + b : ℕ) : ℚ) / k ↔ b = 0 ∨ r = k := by
  have hk' : (k:ℚ) ≠ 0 := by positivity
  have hr' : (r:ℚ) ≠ 0 := by positivity
  rw [div_eq_div_iff hr' hk']
  constructor
  · intro h
    have h1 : (a * r + b) * k = (a * k + b) * r := by exact_mod_cast h
    have h2 : b * k = b * r := by nlinarith
    rcases Nat.eq_zero_or_pos b with hb | hb
    · exact .inl hb
    · exact .inr (Nat.eq_of_mul_eq_mul_left hb h2).symm
  · rintro (rfl | rfl)
    · push_cast; ring
    · rfl

/-- C168. Times which a program has put in a timeline, and which haven't been saved yet, stay at the same frame instead; only
when the animation is saved and opened again have they moved as the others. -/
theorem c168_unsaved {F : Fl} (hF : F.Lawful) {d : Node} (hd : d.isTag = true) (hc : d.name = "canvas") {n k r : ℕ}
    (hn : n < 2 ^ 53) (hk : 1 ≤ k) (hk6 : k < 10 ^ 6) (hr : 1 ≤ r) (hr' : r < 2 ^ 53) (hb : n / k * r + n % k ≤ 2 ^ 53) :
    T.new F (animRoot (setHeader F fpsField (.float r) d).1) (AttrV.t ⟨n, some (k:ℚ)⟩).toTArg = .ok ⟨n, some (r:ℚ)⟩ ∧
    T.new F (animRoot (setHeader F fpsField (.float r) d).1) (.str ((AttrV.t ⟨n, some (k:ℚ)⟩).str' F)) =
      .ok ⟨((n / k * r + n % k : ℕ) : ℚ), some (r:ℚ)⟩ ∧
    (n / k * r + n % k = n ↔ n < k ∨ r = k) := by
  obtain ⟨root, h1, h2⟩ := setFps_root hF hd hc hr'
  refine ⟨?_, ?_, c82_foreign_time_stays_iff n k r hk⟩
  · have hr0 : (0:ℚ) < r := by exact_mod_cast hr
    rw [h1]
    simp only [AttrV.toTArg, T.new, readFps_of h2 hr0, framesOfNumber]
    rw [if_neg (not_lt.2 (by positivity))]
  · rw [h1]; exact gives_new hF hr h2 (gives_str hF hn hk hk6) hb

theorem moved_lt {k r n m : ℕ} (hk : 1 ≤ k) (hkr : k ≤ r) (h : n < m) : n / k * r + n % k < m / k * r + m % k := by
  have h1 := Nat.div_add_mod' n k
  have h2 := Nat.div_add_mod' m k
  have h3 := Nat.mod_lt n hk
  rcases (Nat.div_le_div_right (c := k) h.le).eq_or_lt with he | hl
  · rw [he] at h1 ⊢; omega
  · have h4 : (n / k + 1) * r ≤ m / k * r := Nat.mul_le_mul_right _ hl
    have h5 : (n / k + 1) * r = n / k * r + r := by ring
    omega

/-- C168. If the new rate is no less than the old one, a timeline has the same waypoints in the same order, each moved as
`c168_reckoned` says. (Times are written with fewer frames than there are in a second.) -/
theorem c168_faster {F : Fl} (hF : F.Lawful) {root root' : Attrs} {k r : ℕ} (hk : 1 ≤ k) (hkr : k ≤ r) (hroot : HasFps F root k)
    (hroot' : HasFps F root' r) {par : Bool} {ty : Str} {n : Node} {ws : List Waypoint} (hn : n.name = "animated")
    (ht : n.attrs.get "type" = some (.str ty))
    (hw : List.Forall₂ (fun x w => WpElement F (some root) ty x w ∧ ∃ s a b, x.attrs.get "time" = some (.str s) ∧ GivesTime s a b ∧
      b < k ∧ a * r + b ≤ 2 ^ 53) n.tagKids ws)
    (hd : ws.Pairwise fun a b => a.time.frames ≠ b.time.frames) :
    ∃ l l', iterTimeline F ⟨some root, par⟩ n = .ok l ∧ l.Perm ws ∧ iterTimeline F ⟨some root', par⟩ n = .ok l' ∧
      List.Forall₂ (fun w w' => w'.before = w.before ∧ w'.after = w.after ∧ w'.val = w.val ∧
        ∃ a b : ℕ, b < k ∧ w.time = ⟨((a * k + b : ℕ) : ℚ), some (k:ℚ)⟩ ∧
          w'.time = ⟨((a * r + b : ℕ) : ℚ), some (r:ℚ)⟩) l l' := by
  have hr : 1 ≤ r := hk.trans hkr
  let mv : Waypoint → Waypoint := fun w =>
    {w with time := ⟨((⌊w.time.frames⌋₊ / k * r + ⌊w.time.frames⌋₊ % k : ℕ) : ℚ), some (r:ℚ)⟩}
  have hw1 : List.Forall₂ (WpElement F (some root) ty) n.tagKids ws := hw.imp fun _ _ h => h.1
  have htimes : ∀ x w, (WpElement F (some root) ty x w ∧ ∃ s a b, x.attrs.get "time" = some (.str s) ∧ GivesTime s a b ∧
      b < k ∧ a * r + b ≤ 2 ^ 53) → ∃ a b : ℕ, b < k ∧ w.time = ⟨((a * k + b : ℕ) : ℚ), some (k:ℚ)⟩ ∧
        (mv w).time = ⟨((a * r + b : ℕ) : ℚ), some (r:ℚ)⟩ ∧ WpElement F (some root') ty x (mv w) := by
    rintro x w ⟨hx, s, a, b, hs, hg, hb, hbound⟩
    have hbound' : a * k + b ≤ 2 ^ 53 := le_trans (by gcongr) hbound
    obtain ⟨s', hs1, hs2⟩ := hx.time
    rw [hs] at hs1
    cases hs1
    rw [gives_new hF hk hroot hg hbound'] at hs2
    have hwt := (Except.ok.inj hs2).symm
    have hmv : (mv w).time = ⟨((a * r + b : ℕ) : ℚ), some (r:ℚ)⟩ := by
      simp only [mv, hwt, Nat.floor_natCast]
      have e1 : (a * k + b) / k = a := by
        rw [Nat.add_comm, Nat.add_mul_div_right _ _ hk, Nat.div_eq_of_lt hb, Nat.zero_add]
      have e2 : (a * k + b) % k = b := by
        rw [Nat.add_comm, Nat.add_mul_mod_self_right, Nat.mod_eq_of_lt hb]
      rw [e1, e2]
    exact ⟨a, b, hb, hwt, hmv, hx.name, ⟨s, hs, by rw [hmv]; exact gives_new hF hr hroot' hg hbound⟩, hx.before, hx.after,
      hx.value, hx.type, hx.still, hx.cls⟩
  have hw2 : List.Forall₂ (WpElement F (some root') ty) n.tagKids (ws.map mv) := by
    rw [List.forall₂_map_right_iff]
    exact hw.imp fun x w h => by
      obtain ⟨a, b, -, -, -, h'⟩ := htimes x w h
      exact h'
  have hall : ∀ w ∈ ws, ∃ a b : ℕ, b < k ∧ w.time = ⟨((a * k + b : ℕ) : ℚ), some (k:ℚ)⟩ ∧
        (mv w).time = ⟨((a * r + b : ℕ) : ℚ), some (r:ℚ)⟩ := by
    intro w hwm
    obtain ⟨i, hi, rfl⟩ := List.mem_iff_getElem.1 hwm
    have hi' : i < n.tagKids.length := by rw [hw.length_eq]; exact hi
    obtain ⟨a, b, h1, h2, h3, -⟩ := htimes _ _ (List.forall₂_iff_get.1 hw |>.2 i hi' hi)
    exact ⟨a, b, h1, h2, h3⟩
  have hmono : ∀ w ∈ ws, ∀ v ∈ ws, w.time.frames < v.time.frames → (mv w).time.frames < (mv v).time.frames := by
    intro w hwm v hvm hlt
    obtain ⟨a, b, -, h2, -⟩ := hall w hwm
    obtain ⟨a', b', -, h2', -⟩ := hall v hvm
    simp only [mv, h2, h2', Nat.floor_natCast]
    rw [h2, h2'] at hlt
    dsimp only at hlt
    have hlt' : a * k + b < a' * k + b' := Nat.cast_lt.1 hlt
    exact_mod_cast moved_lt hk hkr hlt'
  have hd2 : (ws.map mv).Pairwise fun a b => a.time.frames ≠ b.time.frames := by
    rw [List.pairwise_map]
    refine hd.imp_of_mem fun {w v} hwm hvm hne => ?_
    rcases lt_or_gt_of_ne hne with h | h
    · exact (hmono w hwm v hvm h).ne
    · exact (hmono v hvm w hwm h).ne'
  obtain ⟨l, hl, hlp, hls, -⟩ := c118_list (ctx := ⟨some root, par⟩) hn ht hw1 hd
  obtain ⟨l', hl', hlp', hls', -⟩ := c118_list (ctx := ⟨some root', par⟩) hn ht hw2 hd2
  refine ⟨l, l', hl, hlp, hl', ?_⟩
  have heq : l' = l.map mv := by
    refine List.Perm.eq_of_pairwise (le := fun a b : Waypoint => a.time.frames < b.time.frames) ?_ hls' ?_
      (hlp'.trans (hlp.map mv).symm)
    · intro a b _ _ h1 h2
      exact absurd h1 h2.not_gt
    · rw [List.pairwise_map]
      exact hls.imp_of_mem fun {w v} hwm hvm h => hmono w (hlp.mem_iff.1 hwm) v (hlp.mem_iff.1 hvm) h
  rw [heq, List.forall₂_map_right_iff, List.forall₂_same]
  intro w hwm
  exact ⟨rfl, rfl, rfl, hall w (hlp.mem_iff.1 hwm)⟩

/-- C168, violated: at any lower rate, times change places or come to be the same. The last frame of the first second, and the
start of the next. -/
theorem c168_slower_fails {F : Fl} (hF : F.Lawful) {d : Node} (hd : d.isTag = true) (hc : d.name = "canvas") {k r : ℕ}
    (hr : 1 ≤ r) (hrk : r < k) (hk6 : k < 10 ^ 6) :
    ∃ t t', T.new F (animRoot (setHeader F fpsField (.float r) d).1) (.str (T.str F ⟨((k - 1 : ℕ) : ℚ), some (k:ℚ)⟩)) = .ok t ∧
      T.new F (animRoot (setHeader F fpsField (.float r) d).1) (.str (T.str F ⟨(k : ℚ), some (k:ℚ)⟩)) = .ok t' ∧
      t'.frames ≤ t.frames ∧ (t'.frames = t.frames ↔ r + 1 = k) := by
  have hk : 1 ≤ k := by omega
  have hr' : r < 2 ^ 53 := by omega
  have e1 : (k - 1) / k = 0 := Nat.div_eq_of_lt (by omega)
  have e2 : (k - 1) % k = k - 1 := Nat.mod_eq_of_lt (by omega)
  have h1 := (c168_unsaved hF hd hc (n := k - 1) (k := k) (r := r) (by omega) hk hk6 hr hr' (by rw [e1, e2]; omega)).2.1
  have h2 := (c168_unsaved hF hd hc (n := k) (k := k) (r := r) (by omega) hk hk6 hr hr' (by
    rw [Nat.div_self hk, Nat.mod_self]; omega)).2.1
  rw [e1, e2] at h1
  rw [Nat.div_self hk, Nat.mod_self] at h2
  refine ⟨_, _, h1, h2, ?_, ?_⟩
  · have : 1 * r + 0 ≤ 0 * r + (k - 1) := by omega
    exact Nat.cast_le.2 this
  · have : 1 * r + 0 = 0 * r + (k - 1) ↔ r + 1 = k := by omega
    rw [← this]
    exact Nat.cast_inj

/-- C168. The animation then has `r` frames for each of the seconds that the header gives, and not as many as before. -/
theorem c168_length {F : Fl} (hF : F.Lawful) {d : Node} (hd : d.isTag = true) (hc : d.name = "canvas") {r : ℕ} (hr : 1 ≤ r)
    (hr' : r < 2 ^ 53) {te tb : Str} (he : d.attrs.get "end-time" = some (.str te))
    (hb : d.attrs.get "begin-time" = some (.str tb)) {a b a' b' : ℕ} (hse : GivesTime te a b) (hsb : GivesTime tb a' b')
    (hle : a' * r + b' ≤ a * r + b) (hsize : a * r + b + (a' * r + b') + 2 ≤ 2 ^ 53) :
    framecount F (setHeader F fpsField (.float r) d).1 = .ok (((a * r + b : ℕ) : ℤ) - ((a' * r + b' : ℕ) : ℤ) + 1) := by
  obtain ⟨root, h1, h2⟩ := setFps_root hF hd hc hr'
  have e : (setHeader F fpsField (.float r) d).1 = d.setAttr "fps" (.num r) := rfl
  have hn : (setHeader F fpsField (.float r) d).1.name = "canvas" := by rw [e, (setAttr_rest d "fps" (.num r)).1, hc]
  have hra : root = (setHeader F fpsField (.float r) d).1.attrs := by
    simp only [animRoot, canvasRoot, hn, if_true, Option.some.injEq] at h1
    exact h1.symm
  rw [hra] at h2
  have he' : (setHeader F fpsField (.float r) d).1.attrs.get "end-time" = some (.str te) := by
    rw [e, get_setAttr d hd, if_neg (by decide)]; exact he
  have hb' : (setHeader F fpsField (.float r) d).1.attrs.get "begin-time" = some (.str tb) := by
    rw [e, get_setAttr d hd, if_neg (by decide)]; exact hb
  rw [c89_framecount hF _ hn (a * r + b) (a' * r + b') hle (some r) te tb he' hb' (gives_new hF hr h2 hse (by omega))
    (gives_new hF hr h2 hsb (by omega)) hsize, Nat.card_Icc]
  congr 1
  omega

/-- Ten seconds and six frames have 247 frames at 24 per second, and 127 at 12. -/
example : framecount double (.tag "canvas" [("fps", .str "24".toList), ("begin-time", .str "0f".toList),
      ("end-time", .str "10s 6f".toList)] []) = .ok 247 ∧
    framecount double (setHeader double fpsField (.float 12) (.tag "canvas" [("fps", .str "24".toList),
      ("begin-time", .str "0f".toList), ("end-time", .str "10s 6f".toList)] [])).1 = .ok 127 := by
  constructor <;> decide +kernel

/-- A document at 24 frames per second. -/
def exAt24 : Node := .tag "canvas" [("fps", .str "24".toList)] []

/-- An animated value with waypoints on the last frame of a second and the first of the next. -/
def exEdge : Node := .tag "animated" [("type", .str "real".toList)] [exWp "1s" "2", exWp "23f" "1"]

/-- The frames and texts of a timeline. -/
def shownAt (F : Fl) (root : Option Attrs) (n : Node) : Res (List (ℚ × Option AttrV)) :=
  (iterTimeline F ⟨root, true⟩ n).map fun l => l.map fun w => (w.time.frames, w.val.attrs.get "value")

/-- C168, violated: at 24 frames per second it goes from 1 to 2; at 12, from 2 to 1; at 23, there's just one waypoint, and at 30
all is well. -/
theorem c168_slower_fails_timeline :
    shownAt double (animRoot exAt24) exEdge = .ok [(23, some (.str "1".toList)), (24, some (.str "2".toList))] ∧
    shownAt double (animRoot (setHeader double fpsField (.float 12) exAt24).1) exEdge =
      .ok [(12, some (.str "2".toList)), (23, some (.str "1".toList))] ∧
    shownAt double (animRoot (setHeader double fpsField (.float 23) exAt24).1) exEdge = .ok [(23, some (.str "1".toList))] ∧
    shownAt double (animRoot (setHeader double fpsField (.float 30) exAt24).1) exEdge =
      .ok [(23, some (.str "1".toList)), (30, some (.str "2".toList))] := by
  refine ⟨?_, ?_, ?_, ?_⟩ <;> decide +kernel

/-- Its times are of the kind `c168_faster` is about, and so is `2m 12f 1h`. -/
example : GivesTime "23f".toList 0 23 ∧ GivesTime "1s".toList 1 0 ∧ GivesTime " 2m 12f 1h".toList 3720 12 := by
  refine ⟨?_, ?_, ?_⟩
  · have h : T.str double ⟨((23:ℕ):ℚ), some ((24:ℕ):ℚ)⟩ = "23f".toList := by decide +kernel
    rw [← h]
    exact gives_str (n := 23) (k := 24) double_lawful (by norm_num) (by norm_num) (by norm_num)
  · have h : T.str double ⟨((24:ℕ):ℚ), some ((24:ℕ):ℚ)⟩ = "1s".toList := by decide +kernel
    rw [← h]
    exact gives_str (n := 24) (k := 24) double_lawful (by norm_num) (by norm_num) (by norm_num)
  · refine ⟨[⟨[' '], ⟨false, ['2'], []⟩, .m⟩, ⟨[' '], ⟨false, ['1', '2'], []⟩, .f⟩, ⟨[' '], ⟨false, ['1'], []⟩, .h⟩], [], 1, 2, 0,
      ?_, ?_, ?_, rfl, ?_, ?_, ?_, ?_, rfl⟩
    · intro p hp
      simp only [List.mem_cons, List.not_mem_nil, or_false] at hp
      rcases hp with rfl | rfl | rfl <;> exact ⟨by decide, by decide, by decide, by decide⟩
    · simp
    · unfold Distinct; decide
    all_goals decide +kernel

/-- The timeline meets the hypotheses of `c168_faster`. -/
example : ∃ l l', iterTimeline double ⟨animRoot exAt24, true⟩ exEdge = .ok l ∧ l.length = 2 ∧
    iterTimeline double ⟨animRoot (setHeader double fpsField (.float (30:ℕ)) exAt24).1, true⟩ exEdge = .ok l' ∧ l'.length = 2 := by
  obtain ⟨root', h1, h2⟩ := setFps_root double_lawful (d := exAt24) rfl rfl (r := 30) (by norm_num)
  rw [h1]
  have g1 : GivesTime "23f".toList 0 23 := by
    have h : T.str double ⟨((23:ℕ):ℚ), some ((24:ℕ):ℚ)⟩ = "23f".toList := by decide +kernel
    rw [← h]
    exact gives_str (n := 23) (k := 24) double_lawful (by norm_num) (by norm_num) (by norm_num)
  have g2 : GivesTime "1s".toList 1 0 := by
    have h : T.str double ⟨((24:ℕ):ℚ), some ((24:ℕ):ℚ)⟩ = "1s".toList := by decide +kernel
    rw [← h]
    exact gives_str (n := 24) (k := 24) double_lawful (by norm_num) (by norm_num) (by norm_num)
  obtain ⟨l, l', e1, e2, e3, e4⟩ := c168_faster double_lawful (k := 24) (r := 30) (by norm_num) (by norm_num)
    (root := [("fps", .str "24".toList)]) ⟨_, rfl, by decide +kernel⟩ h2 (par := true) (ty := "real".toList) (n := exEdge)
    (ws := [⟨⟨24, some 24⟩, "clamped".toList, "ease".toList, .tag "real" [("value", .str "2".toList)] []⟩,
      ⟨⟨23, some 24⟩, "clamped".toList, "ease".toList, .tag "real" [("value", .str "1".toList)] []⟩]) rfl rfl
    (by
      have : exEdge.tagKids = [exWp "1s" "2", exWp "23f" "1"] := rfl
      rw [this]
      exact .cons ⟨exWp_element (by decide +kernel), _, _, _, rfl, g2, by norm_num, by norm_num⟩
        (.cons ⟨exWp_element (by decide +kernel), _, _, _, rfl, g1, by norm_num, by norm_num⟩ .nil))
    (by simp)
  exact ⟨l, l', e1, e2.length_eq, e3, e4.length_eq ▸ e2.length_eq⟩

end Sang
