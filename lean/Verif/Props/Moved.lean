import Verif.Spec.Moved
import Verif.Lemmas.SungText
import Verif.Lemmas.TRate
import Verif.Props.SaveOpen

/-!
# Waypoints between frames, after saving and opening (C157)
-/

namespace Sang
open Spec

theorem six_nat {k : ℕ} (hk : 1 ≤ k) (hk6 : k < 10 ^ 6) : sixPos (k:ℚ) = k := by
  have hk' : (0:ℚ) < k := by exact_mod_cast hk
  have hl5 : Int.log 10 (k:ℚ) ≤ 5 := log10_le hk' (by
    have : (k:ℚ) < 10 ^ 6 := by exact_mod_cast hk6
    have e6 : (10:ℚ) ^ ((5:ℤ) + 1) = 10 ^ 6 := by norm_num
    rw [e6]; exact this)
  obtain ⟨d, hd⟩ := Int.eq_ofNat_of_zero_le (show 0 ≤ 5 - Int.log 10 (k:ℚ) by omega)
  have hd2 : Int.log 10 (k:ℚ) - 5 = -(d:ℤ) := by omega
  rw [sixPos, hd, hd2]
  have e : (k:ℚ) * (10:ℚ) ^ (d:ℤ) = ((k * 10 ^ d : ℕ) : ℚ) := by push_cast; simp
  rw [e, rhe_nat, zpow_neg, zpow_natCast]
  push_cast
  rw [mul_assoc, mul_inv_cancel₀ (by positivity), mul_one]

theorem six_of_pos {r : ℚ} (h : 0 < r) : six r = sixPos r := by rw [six, if_neg h.ne', if_neg (not_lt.2 h.le)]

/-- C157. Written and read, times are in the order that they were. -/
theorem c157_order_partial {F : Fl} (hF : F.Lawful) {root : Attrs} {k : ℕ} (hk : 1 ≤ k) (hk6 : k < 10 ^ 6)
    (hroot : HasFps F root k) {p q : ℚ} (h0 : 0 ≤ p) (hpq : p ≤ q) (hq : q < 2 ^ 53)
    (hp : pastSecond p k = 0 ∨ tiny ≤ pastSecond p k) (hq' : pastSecond q k = 0 ∨ tiny ≤ pastSecond q k)
    {s t : T} (hs : T.new F (some root) (.str (T.str F ⟨p, some (k:ℚ)⟩)) = .ok s)
    (ht : T.new F (some root) (.str (T.str F ⟨q, some (k:ℚ)⟩)) = .ok t) : s.frames ≤ t.frames := by
  have hk' : (0:ℚ) < k := by exact_mod_cast hk
  have hdiv : F.rnd (p / k) ≤ F.rnd (q / k) := hF.mono (by gcongr)
  have hbp := pastSecond_bounds (q := p) k hk
  have hbq := pastSecond_bounds (q := q) k hk
  have hsk : F.rnd (k:ℚ) = k := hF.nat k (le_trans hk6.le (by norm_num))
  have hpart : ∀ r, tiny ≤ r → r < (k:ℚ) → 0 ≤ F.rnd (six r) ∧ F.rnd (six r) ≤ k := by
    intro r h1 h2
    have hr0 : 0 < r := lt_of_lt_of_le (by norm_num [tiny]) h1
    rw [six_of_pos hr0]
    refine ⟨hF.nonneg (sixPos_pos hr0).le, ?_⟩
    have := hF.mono (sixPos_mono hr0 h2.le)
    rwa [six_nat hk hk6, hsk] at this
  have hexact : ∀ n : ℕ, (n:ℚ) * k ≤ 2 ^ 53 → F.rnd ((n:ℚ) * k) = (n:ℚ) * k := by
    intro n hn
    have := hF.nat (n * k) (by exact_mod_cast hn)
    push_cast at this
    exact this
  -- between two seconds
  have hbetween : ∀ (x : ℚ) (n : ℕ), x < 2 ^ 53 → (∀ m : ℕ, F.rnd (x / k) ≠ m) → (n:ℚ) * k + pastSecond x k = x →
      0 ≤ pastSecond x k → pastSecond x k < k → (n:ℚ) < F.rnd (x / k) ∧ F.rnd (x / k) < ((n + 1 : ℕ):ℚ) := by
    intro x n hx hw hn b0 b1
    have hn53 : (n:ℚ) < 2 ^ 53 := by
      have : (1:ℚ) ≤ k := by exact_mod_cast hk
      nlinarith [Nat.cast_nonneg (α := ℚ) n]
    have hn53' : n < 2 ^ 53 := by exact_mod_cast hn53
    have e1 : (n:ℚ) ≤ x / k := by rw [le_div_iff₀ hk']; linarith
    have e2 : x / k ≤ ((n + 1 : ℕ):ℚ) := by rw [div_le_iff₀ hk']; push_cast; linarith
    have f1 := hF.mono e1
    have f2 := hF.mono e2
    rw [hF.nat n hn53'.le] at f1
    rw [hF.nat (n + 1) (by omega)] at f2
    exact ⟨lt_of_le_of_ne f1 (hw n).symm, lt_of_le_of_ne f2 (hw (n + 1))⟩
  have hp53 : p < 2 ^ 53 := lt_of_le_of_lt hpq hq
  obtain ⟨n, ⟨hw, -, hn⟩ | ⟨hw, hnp, hr4, hn⟩⟩ := read_fraction hF h0 hp53 hk hk6 hroot hp <;>
  obtain ⟨m, ⟨hw', he', hm⟩ | ⟨hw', hmq, hr4', hm⟩⟩ := read_fraction hF (h0.trans hpq) hq hk hk6 hroot hq' <;>
  rw [hs] at hn <;> injection hn with hn <;> rw [ht] at hm <;> injection hm with hm <;> subst hn hm <;> dsimp only
  · rw [hw, hw'] at hdiv
    gcongr
  · obtain ⟨-, g2⟩ := hbetween q m hq hw' hmq hbq.1 hbq.2
    obtain ⟨r0, -⟩ := hpart _ hr4' hbq.2
    rw [hw] at hdiv
    have hnm : n < m + 1 := by exact_mod_cast lt_of_le_of_lt hdiv g2
    have hle : (n:ℚ) * k ≤ (m:ℚ) * k := by
      gcongr
      omega
    rw [← hexact n (by linarith)]
    exact hF.mono (by linarith)
  · obtain ⟨g1, -⟩ := hbetween p n hp53 hw hnp hbp.1 hbp.2
    obtain ⟨-, r1⟩ := hpart _ hr4 hbp.2
    rw [hw'] at hdiv
    have hnm : n < m := by exact_mod_cast lt_of_lt_of_le g1 hdiv
    have hle : ((n:ℚ) + 1) * k ≤ (m:ℚ) * k := by
      gcongr
      exact_mod_cast hnm
    have hm53 : (m:ℚ) * k ≤ 2 ^ 53 := by
      have h1 := (abs_le.1 he').2
      have h2 : q / 2 ^ 53 < 1 := by rw [div_lt_one (by positivity)]; exact hq
      have h3 : ((m * k : ℕ):ℚ) < ((2 ^ 53 + 1 : ℕ):ℚ) := by push_cast; linarith
      have h4 := Nat.cast_lt.1 h3
      have h5 : m * k ≤ 2 ^ 53 := by omega
      exact_mod_cast h5
    rw [← hexact m hm53]
    exact hF.mono (by linarith)
  · apply hF.mono
    have hnm : n ≤ m := by
      have : (n:ℚ) * k < ((m + 1 : ℕ):ℚ) * k := by push_cast; linarith
      have := Nat.cast_lt.1 (lt_of_mul_lt_mul_right this hk'.le)
      omega
    obtain ⟨r0, -⟩ := hpart _ hr4' hbq.2
    obtain ⟨-, r1⟩ := hpart _ hr4 hbp.2
    rcases Nat.lt_or_eq_of_le hnm with h | rfl
    · have hle : ((n:ℚ) + 1) * k ≤ (m:ℚ) * k := by
        gcongr
        exact_mod_cast h
      linarith
    · have hr : pastSecond p k ≤ pastSecond q k := by linarith
      have hr0 : 0 < pastSecond p k := lt_of_lt_of_le (by norm_num [tiny]) hr4
      rw [six_of_pos hr0, six_of_pos (lt_of_lt_of_le hr0 hr)]
      have := hF.mono (sixPos_mono hr0 hr)
      linarith

/-! ## Waypoints -/

/-- A waypoint with another time and another value. -/
def Waypoint.shifted (F : Fl) (g : ℚ → ℚ) (w : Waypoint) : Waypoint :=
  {w with time := ⟨g w.time.frames, w.time.fps⟩, val := w.val.opened F}

theorem fromTag_waypoint_shifted {F : Fl} {root root' : Option Attrs} {ty : Str} {n : Node} {w : Waypoint}
    (hn : n.XmlOk F) (h : Waypoint.fromTag F root ty n = .ok w) {q r : ℚ}
    (ha : n.attrs.get "time" = some (.t ⟨q, some r⟩)) (hf : readFps F root = .ok (some r)) (hq : 0 ≤ q)
    {g : ℚ → ℚ} (hg : T.new F root' (.str (attrSpaces (T.str F ⟨q, some r⟩))) = .ok ⟨g q, some r⟩) :
    Waypoint.fromTag F root' (attrSpaces ty) (n.opened F) = .ok (w.shifted F g) ∧ w.val ∈ n.tagKids ∧
      w.time = ⟨q, some r⟩ := by
  simp only [Waypoint.fromTag] at h
  split at h
  · simp at h
  next hname =>
  split at h
  · simp at h
  next a hget =>
  split at h
  · simp at h
  next t ht =>
  split at h
  · next v hv =>
    split at h
    · simp at h
    next hna =>
    split at h
    · simp at h
    next hty =>
    split at h
    · simp at h
    next c hc =>
    split at h
    · simp at h
    next b hb =>
    split at h
    · simp at h
    next e he =>
    split at h
    · simp at h
    next b' hb' =>
    split at h
    · simp at h
    next e' he' =>
    injection h with h; subst h
    have hvm : v ∈ n.tagKids := by rw [hv]; exact List.mem_cons_self
    rw [ha] at hget
    injection hget with hget
    subst hget
    have htq : t = ⟨q, some r⟩ := by
      have := new_t_nonneg (F := F) (root := root) hf (rfl : (⟨q, some r⟩ : T).fps = _) hq
      rw [show (AttrV.t ⟨q, some r⟩).toTArg = .t ⟨q, some r⟩ from rfl, this] at ht
      injection ht with ht
      exact ht.symm
    refine ⟨?_, hvm, htq⟩
    have hfv := opened_fromTag (xmlOk_tagKids hn v hvm) hc
    have hpl := (fromTag_reload (F := F) hna hc).2
    have hty' : v.name.toList = ty := by simpa using hty
    have hpt : Plain ty := hty' ▸ hpl
    have h1 : (n.opened F).attrs.get "time" = some (.str (attrSpaces (T.str F ⟨q, some r⟩))) := by
      rw [opened_get hn, ha]; rfl
    have h2 : (n.opened F).tagKids = [v.opened F] := by rw [opened_tagKids, hv]; rfl
    have h3 : strAttr (n.opened F) "before" = .ok b := by
      rw [opened_strAttr hn hb, attrSpaces_id (checkInterp_plain hb')]
    have h4 : strAttr (n.opened F) "after" = .ok e := by
      rw [opened_strAttr hn he, attrSpaces_id (checkInterp_plain he')]
    subst htq
    simp only [Waypoint.fromTag, opened_name, if_neg hname, h1, AttrV.toTArg, hg, h2, if_neg hna, hfv,
      h3, h4, hb', he', attrSpaces_id hpt, hty', ne_eq, not_true_eq_false, if_false, Waypoint.shifted]
  · simp at h

/-- Of waypoints at one time, the last is in the dict. -/
theorem mem_foldl_last {f : Option ℚ} {l : List Waypoint} (h : AllFps f l) (u : Waypoint) :
    u ∈ l.foldl (fun d w => putWp w d) [] ↔
      ∃ pre post, l = pre ++ u :: post ∧ ∀ v ∈ post, v.time.frames ≠ u.time.frames := by
  induction l using List.reverseRecOn with
  | nil => simp
  | append_singleton l w ih =>
    have hl : AllFps f l := fun x hx => h x (by simp [hx])
    have hw : w.time.fps = f := h w (by simp)
    obtain ⟨i1, i2, -⟩ := foldl_putWp_inv (f := f) l [] hl (by simp [AllFps]) (by simp [Apart])
    rw [List.foldl_append, List.foldl_cons, List.foldl_nil, mem_putWp hw i1 i2, ih hl]
    constructor
    · rintro (rfl | ⟨⟨pre, post, rfl, hp⟩, hne⟩)
      · exact ⟨l, [], rfl, by simp⟩
      · refine ⟨pre, post ++ [w], by simp, ?_⟩
        intro v hv
        rcases List.mem_append.1 hv with hv | hv
        · exact hp v hv
        · rw [List.mem_singleton] at hv; subst hv; exact hne.symm
    · rintro ⟨pre, post, he, hp⟩
      rcases List.eq_nil_or_concat post with rfl | ⟨post', x, rfl⟩
      · left
        have := List.append_inj' he rfl
        simp only [List.cons.injEq, and_true] at this
        exact this.2.symm
      · right
        have he' : l ++ [w] = (pre ++ u :: post') ++ [x] := by rw [he]; simp
        have := List.append_inj' he' rfl
        simp only [List.cons.injEq, and_true] at this
        obtain ⟨rfl, rfl⟩ := this
        exact ⟨⟨pre, post', rfl, fun v hv => hp v (by simp [hv])⟩, (hp w (by simp)).symm⟩

/-- Every time is in the dict. -/
theorem foldl_putWp_times {f : Option ℚ} {l : List Waypoint} (h : AllFps f l) {w : Waypoint} (hw : w ∈ l) :
    ∃ u ∈ l.foldl (fun d w => putWp w d) [], u.time.frames = w.time.frames := by
  induction l using List.reverseRecOn with
  | nil => simp at hw
  | append_singleton l x ih =>
    have hl : AllFps f l := fun x hx => h x (by simp [hx])
    have hx : x.time.fps = f := h x (by simp)
    obtain ⟨i1, i2, -⟩ := foldl_putWp_inv (f := f) l [] hl (by simp [AllFps]) (by simp [Apart])
    rw [List.foldl_append, List.foldl_cons, List.foldl_nil]
    rcases List.mem_append.1 hw with hw | hw
    · obtain ⟨u, hu, he⟩ := ih hl hw
      by_cases hc : u.time.frames = x.time.frames
      · exact ⟨x, (mem_putWp hx i1 i2).2 (.inl rfl), by rw [← hc, he]⟩
      · exact ⟨u, (mem_putWp hx i1 i2).2 (.inr ⟨hu, hc⟩), he⟩
    · rw [List.mem_singleton] at hw
      subst hw
      exact ⟨w, (mem_putWp hx i1 i2).2 (.inl rfl), rfl⟩

theorem putWp_shifted {F : Fl} {g : ℚ → ℚ} {f : Option ℚ} {w : Waypoint} {ws : List Waypoint} (hw : w.time.fps = f)
    (h : AllFps f ws) (hi : ∀ x ∈ ws, g x.time.frames = g w.time.frames ↔ x.time.frames = w.time.frames) :
    putWp (w.shifted F g) (ws.map (Waypoint.shifted F g)) = (putWp w ws).map (Waypoint.shifted F g) := by
  induction ws with
  | nil => rfl
  | cons x r ih =>
    have hx := h x List.mem_cons_self
    have e : (x.shifted F g).time.sameKey (w.shifted F g).time = x.time.sameKey w.time := by
      rw [Bool.eq_iff_iff]
      exact (sameKey_iff (a := (x.shifted F g).time) (b := (w.shifted F g).time) (f := f) hx hw).trans
        ((hi x List.mem_cons_self).trans (sameKey_iff (f := f) hx hw).symm)
    simp only [List.map_cons, putWp, e]
    rw [ih (fun y hy => h y (List.mem_cons_of_mem _ hy)) (fun y hy => hi y (List.mem_cons_of_mem _ hy))]
    split <;> rfl

theorem foldl_putWp_shifted {F : Fl} {g : ℚ → ℚ} {f : Option ℚ} {l : List Waypoint} (h : AllFps f l)
    (hi : ∀ x ∈ l, ∀ y ∈ l, g x.time.frames = g y.time.frames ↔ x.time.frames = y.time.frames) :
    (l.map (Waypoint.shifted F g)).foldl (fun d w => putWp w d) [] =
      (l.foldl (fun d w => putWp w d) []).map (Waypoint.shifted F g) := by
  induction l using List.reverseRecOn with
  | nil => rfl
  | append_singleton l w ih =>
    have hl : AllFps f l := fun x hx => h x (by simp [hx])
    obtain ⟨i1, i2, i3⟩ := foldl_putWp_inv (f := f) l [] hl (by simp [AllFps]) (by simp [Apart])
    rw [List.map_append, List.foldl_append, ih hl (fun x hx y hy => hi x (by simp [hx]) y (by simp [hy])),
      List.foldl_append]
    simp only [List.map_cons, List.map_nil, List.foldl_cons, List.foldl_nil]
    refine putWp_shifted (h w (by simp)) i1 fun x hx => hi x ?_ w (by simp)
    rcases i3 x hx with h | h
    · simp at h
    · simp [h]

/-- What becomes of a time that is written and read. -/
def afterText (F : Fl) (root : Option Attrs) (r q : ℚ) : ℚ :=
  match T.new F root (.str (attrSpaces (T.str F ⟨q, some r⟩))) with
  | .ok t => t.frames
  | .error _ => 0

/-- The text of a time stays as it is in an attribute. -/
theorem rate_str_plain {F : Fl} (hF : F.Lawful) {q r : ℚ} (h0 : 0 ≤ q) (hr : 0 < r) (hr6 : r ≤ 999999)
    (hq : q / r < 2 ^ 53) (hp : (∃ m : ℕ, F.rnd (q / r) = m) ∨ tiny ≤ framesPast q r) :
    Plain (T.str F ⟨q, some r⟩) := by
  obtain ⟨n, ε, hn53, he, e0, e1, herr, hfl⟩ := rate_seconds hF h0 hr hq
  by_cases hε : ε = 0
  · subst hε
    rw [add_zero] at he herr
    by_cases hn : n = 0
    · subst hn
      have hz : q / r ≤ q / r / 2 ^ 53 := by
        rw [Nat.cast_zero, zero_sub, abs_neg, abs_of_nonneg (by positivity)] at herr
        exact herr
      have hq0 : q = 0 := by
        have h1 : 0 ≤ q / r := by positivity
        have : q / r = 0 := by
          rw [le_div_iff₀ (by positivity)] at hz
          nlinarith
        rcases div_eq_zero_iff.1 this with h | h
        · exact h
        · exact absurd h hr.ne'
      subst hq0
      rw [rate_str_zero hF]
      decide
    · rw [rate_str_at h0 he hn]
      exact specText_plain _ _
  · rw [rate_str_past h0 he e0 e1 hε]
    have hb := framesPast_bounds (q := q) hr
    have hr4 : tiny ≤ framesPast q r := by
      rcases hp with ⟨m, hm⟩ | hp
      · rw [he] at hm
        have h1 : (n:ℚ) ≤ m := by linarith
        have h2 : (m:ℚ) < (n + 1 : ℕ) := by push_cast; linarith
        have h3 := Nat.cast_le.1 h1
        have h4 := Nat.cast_lt.1 h2
        have : m = n := by omega
        subst this
        exact absurd (by linarith) hε
      · exact hp
    obtain ⟨a, a1, a2, a3, a4⟩ := fmtG_amount hr4 (by linarith [hb.2])
    rw [← a3, ← secParts_text]
    exact part_plain n a2

theorem afterText_eq {F : Fl} (hF : F.Lawful) {root : Option Attrs} {q r : ℚ} (h0 : 0 ≤ q) (hr : 0 < r)
    (hr6 : r ≤ 999999) (hq : q / r < 2 ^ 53) (hf : readFps F root = .ok (some r))
    (hp : (∃ m : ℕ, F.rnd (q / r) = m) ∨ tiny ≤ framesPast q r) :
    T.new F root (.str (attrSpaces (T.str F ⟨q, some r⟩))) = .ok ⟨afterText F root r q, some r⟩ ∧
      |afterText F root r q - q| ≤ slack r q := by
  obtain ⟨a, rfl, ha⟩ := fps_root hf
  obtain ⟨x, hx, hb⟩ := rate_near hF h0 hr hr6 hq ha hp
  have e : T.new F (some a) (.str (attrSpaces (T.str F ⟨q, some r⟩))) = .ok ⟨x, some r⟩ := by
    rw [attrSpaces_id (rate_str_plain hF h0 hr hr6 hq hp), hx]
  rw [afterText, e]
  exact ⟨rfl, hb⟩

section
variable {F : Fl} {d e n m : Node} (hF : F.Lawful) (hd : d.XmlOk F) (ht : d.isTag = true) (h : SavedAs F d e)
  (hp : SamePlace d e n m) (hfps : NumberAttr F d "fps") {r : ℚ} (hr : 0 < r) (hr6 : r ≤ 999999)
  (hf : readFps F (some d.attrs) = .ok (some r)) (hs : BetweenFrames F r n) {par : Bool} {ws : List Waypoint}
  (hw : waypoints F ⟨some d.attrs, par⟩ n = .ok ws)
include hF hd ht h hp hfps hr hr6 hf hs hw

theorem moved_list : ∃ l, ws = l.foldl (fun d w => putWp w d) [] ∧
    waypoints F ⟨some e.attrs, par⟩ m =
      .ok ((l.map (Waypoint.shifted F (afterText F (some e.attrs) r))).foldl (fun d w => putWp w d) []) ∧
    AllFps (some r) l ∧
    (∀ w ∈ l, Moved d e r w (w.shifted F (afterText F (some e.attrs) r))) := by
  have hf' := c120_fps hd ht h hF hfps hf
  obtain ⟨rfl, hn, htn⟩ := samePlace_opened hd ht h hp
  have htags : waypointTags (n.opened F) = (waypointTags n).map (Node.opened F) := by
    rw [waypointTags, waypointTags, opened_name, opened_tagKids]
    split <;> rfl
  have hsub : ∀ x ∈ waypointTags n, x ∈ n.tagKids := by
    intro x hx
    rw [waypointTags] at hx
    split at hx
    · simp at hx
    · exact hx
  rw [waypoints] at hw
  split at hw
  · next he =>
    injection hw with hw; subst hw
    exact ⟨[], rfl, by rw [waypoints, htags, he]; rfl, by simp [AllFps], by simp⟩
  · next hne =>
    split at hw
    · cases hw
    next ty hty =>
    split at hw
    · cases hw
    next l hl =>
    injection hw with hw
    have hone : ∀ x ∈ waypointTags n, ∀ w, Waypoint.fromTag F (some d.attrs) ty x = .ok w →
        Waypoint.fromTag F (some e.attrs) (attrSpaces ty) (x.opened F) =
          .ok (w.shifted F (afterText F (some e.attrs) r)) ∧ w.val ∈ x.tagKids ∧
        w.time.fps = some r ∧
        |afterText F (some e.attrs) r w.time.frames - w.time.frames| ≤ slack r w.time.frames := by
      intro x hx w hw
      obtain ⟨q, hq, hq0, hq53, hqr⟩ := hs x hx
      obtain ⟨g1, g2⟩ := afterText_eq (q := q) hF hq0 hr hr6 hq53 hf' hqr
      obtain ⟨e1, e2, e3⟩ := fromTag_waypoint_shifted (xmlOk_tagKids hn x (hsub x hx)) hw hq hf hq0 g1
      refine ⟨e1, e2, by rw [e3], by rw [e3]; exact g2⟩
    have hne' : ¬ waypointTags (n.opened F) = [] := by simpa [htags] using hne
    have hm := mapRes_reload (g := Waypoint.fromTag F (some e.attrs) (attrSpaces ty)) (p := Node.opened F) hl
      fun x hx w hw => (hone x hx w hw).1
    have key : ∀ (cs : List Node) (r : List Waypoint), (∀ x ∈ cs, x ∈ waypointTags n) →
        mapRes (Waypoint.fromTag F (some d.attrs) ty) cs = .ok r →
        ∀ p ∈ r, ∃ x ∈ waypointTags n, Waypoint.fromTag F (some d.attrs) ty x = .ok p := by
      intro cs
      induction cs with
      | nil => intro r _ hr p hp; injection hr with hr; subst hr; simp at hp
      | cons x cs ih =>
        intro r hcs hr p hp
        rw [mapRes] at hr
        split at hr
        · cases hr
        · next y hy =>
          split at hr
          · cases hr
          · next ys hys =>
            injection hr with hr; subst hr
            rcases List.mem_cons.mp hp with rfl | hp
            · exact ⟨x, hcs x List.mem_cons_self, hy⟩
            · exact ih ys (fun y hy => hcs y (List.mem_cons_of_mem _ hy)) hys p hp
    have hall := key _ _ (fun _ h => h) hl
    refine ⟨l, hw.symm, ?_, ?_, ?_⟩
    · rw [waypoints, if_neg hne']
      simp only [opened_strAttr hn hty, htags, hm]
    · intro w hwl
      obtain ⟨x, hx, hxw⟩ := hall w hwl
      exact (hone x hx w hxw).2.2.1
    · intro w hwl
      obtain ⟨x, hx, hxw⟩ := hall w hwl
      obtain ⟨-, g2, -, g4⟩ := hone x hx w hxw
      exact ⟨rfl, g4, rfl, rfl, samePlace_kid hd ht h (samePlace_kid hd ht h hp (hsub x hx)) g2⟩

/-- C157. After saving and opening, every waypoint is one of those that there were, moved by no more than five
millionths of a second (and what floating point rounds off); and wherever there was one, there is one. -/
theorem c157_waypoints_partial :
    ∃ ws', waypoints F ⟨some e.attrs, par⟩ m = .ok ws' ∧ (∀ b ∈ ws', ∃ a ∈ ws, Moved d e r a b) ∧
      ∀ a ∈ ws, ∃ b ∈ ws', |b.time.frames - a.time.frames| ≤ slack r a.time.frames := by
  obtain ⟨l, rfl, h1, h2, h3⟩ := moved_list hF hd ht h hp hfps hr hr6 hf hs hw
  have h2' : AllFps (some r) (l.map (Waypoint.shifted F (afterText F (some e.attrs) r))) := by
    intro w hw
    obtain ⟨v, hv, rfl⟩ := List.mem_map.1 hw
    exact h2 v hv
  refine ⟨_, h1, ?_, ?_⟩
  · intro b hb
    obtain ⟨pre, post, he, hlast⟩ := (mem_foldl_last h2' b).1 hb
    obtain ⟨pre', rest, rfl, rfl, he2⟩ := List.map_eq_append_iff.1 he
    obtain ⟨a, post', rfl, rfl, rfl⟩ := List.map_eq_cons_iff.1 he2
    refine ⟨a, (mem_foldl_last h2 a).2 ⟨pre', post', rfl, ?_⟩, h3 a (by simp)⟩
    intro v hv hc
    exact hlast _ (List.mem_map_of_mem hv) (by simp only [Waypoint.shifted, hc])
  · intro a ha
    have hal : a ∈ l := by
      obtain ⟨-, -, i3⟩ := foldl_putWp_inv (f := some r) l [] h2 (by simp [AllFps]) (by simp [Apart])
      rcases i3 a ha with h | h
      · simp at h
      · exact h
    obtain ⟨b, hb, hbe⟩ := foldl_putWp_times h2' (List.mem_map_of_mem (f := Waypoint.shifted F (afterText F (some e.attrs) r)) hal)
    exact ⟨b, hb, by rw [hbe]; exact (h3 a hal).2.1⟩

/-- C157. If the waypoints are further apart than they can move, they are as many as they were, and in the same
order, in the file and in time. -/
theorem c157_apart_partial (hfar : FarApart r ws) :
    ∃ ws', waypoints F ⟨some e.attrs, par⟩ m = .ok ws' ∧ List.Forall₂ (Moved d e r) ws ws' ∧
      ∀ (i j : ℕ) (a b a' b' : Waypoint), ws[i]? = some a → ws[j]? = some b → ws'[i]? = some a' → ws'[j]? = some b' →
        (a.time.frames < b.time.frames ↔ a'.time.frames < b'.time.frames) := by
  obtain ⟨l, rfl, h1, h2, h3⟩ := moved_list hF hd ht h hp hfps hr hr6 hf hs hw
  obtain ⟨-, -, i3⟩ := foldl_putWp_inv (f := some r) l [] h2 (by simp [AllFps]) (by simp [Apart])
  have hml : ∀ a ∈ l.foldl (fun d w => putWp w d) [], a ∈ l := by
    intro a ha
    rcases i3 a ha with h | h
    · simp at h
    · exact h
  have hlt : ∀ x y, x ∈ l → y ∈ l → x.time.frames < y.time.frames →
      afterText F (some e.attrs) r x.time.frames < afterText F (some e.attrs) r y.time.frames := by
    intro x y hx hy hxy
    obtain ⟨u, hu, hue⟩ := foldl_putWp_times h2 hx
    obtain ⟨v, hv, hve⟩ := foldl_putWp_times h2 hy
    have hg := hfar u hu v hv (by rw [hue, hve]; exact hxy.ne)
    rw [hue, hve, abs_of_neg (by linarith)] at hg
    have hx' := abs_le.1 (h3 x hx).2.1
    have hy' := abs_le.1 (h3 y hy).2.1
    simp only [Waypoint.shifted] at hx' hy'
    linarith
  have hiff : ∀ x y, x ∈ l → y ∈ l → (x.time.frames < y.time.frames ↔
      afterText F (some e.attrs) r x.time.frames < afterText F (some e.attrs) r y.time.frames) := by
    intro x y hx hy
    refine ⟨hlt x y hx hy, fun hc => ?_⟩
    rcases lt_trichotomy x.time.frames y.time.frames with h | h | h
    · exact h
    · rw [h] at hc; exact absurd hc (lt_irrefl _)
    · exact absurd (hlt y x hy hx h) hc.asymm
  have hinj : ∀ x ∈ l, ∀ y ∈ l, afterText F (some e.attrs) r x.time.frames =
      afterText F (some e.attrs) r y.time.frames ↔ x.time.frames = y.time.frames := by
    intro x hx y hy
    refine ⟨fun hc => ?_, fun hc => by rw [hc]⟩
    rcases lt_trichotomy x.time.frames y.time.frames with h | h | h
    · exact absurd hc (hlt x y hx hy h).ne
    · exact h
    · exact absurd hc (hlt y x hy hx h).ne'
  rw [foldl_putWp_shifted h2 hinj] at h1
  refine ⟨_, h1, ?_, ?_⟩
  · rw [List.forall₂_map_right_iff, List.forall₂_same]
    exact fun w hw => h3 w (hml w hw)
  · intro i j a b a' b' ha hb ha' hb'
    rw [List.getElem?_map, ha] at ha'
    rw [List.getElem?_map, hb] at hb'
    injection ha' with ha'; injection hb' with hb'
    subst ha' hb'
    exact hiff a b (hml a (List.mem_of_getElem? ha)) (hml b (List.mem_of_getElem? hb))

end

theorem plain_join {l : List Str} (h : ∀ s ∈ l, Plain s) : Plain (join [' '] l) := by
  induction l with
  | nil => intro c hc; simp [join] at hc
  | cons s l ih =>
    have hs := h s List.mem_cons_self
    have hl := ih fun t ht => h t (List.mem_cons_of_mem _ ht)
    cases l with
    | nil => exact hs
    | cons t l => exact plain_append (plain_append hs (by decide)) hl

theorem str_plain_tiny {F : Fl} (hF : F.Lawful) {q r : ℚ} (h0 : 0 ≤ q) (hr : 0 < r) (hq : q / r < 2 ^ 53)
    (hp : framesPast q r < tiny) (hw : ∀ m : ℕ, F.rnd (q / r) ≠ m) : Plain (T.str F ⟨q, some r⟩) := by
  obtain ⟨n, ε, hn53, he, e0, e1, herr, hfl⟩ := rate_seconds hF h0 hr hq
  have hε : ε ≠ 0 := fun h => hw n (by rw [he, h, add_zero])
  have hr0 := framesPast_pos hF h0 hr hq hw
  rw [rate_str_past h0 he e0 e1 hε]
  obtain ⟨a, d, ds, f1, -, f3, f4, -, -, -, -⟩ := fmtG_small hr0 hp
  apply plain_join
  intro s hs
  rcases List.mem_append.1 hs with hs | hs
  · obtain ⟨x, -, rfl⟩ := List.mem_map.1 hs
    rw [ptxt]
    refine plain_append (natStr_plain _) ?_
    cases x.2 <;> decide
  · rw [List.mem_singleton] at hs
    subst hs
    rw [f1]
    refine plain_append (plain_append ?_ (plain_append (a := ['e', '-']) (by decide) (plain_digits f4))) (by decide)
    rw [Amount.text]
    refine plain_append (plain_append ?_ (plain_digits f3.2.1)) ?_
    · split <;> decide
    · split
      · decide
      · exact plain_append (a := ['.']) (by decide) (plain_digits f3.2.2)

/-- C157, violated. If a waypoint after the first second is a tiny part of a frame past a second (and floating point can
tell that from the second itself), the timeline can't be read after saving and opening, though it could be before. -/
theorem c157_fails_unreadable {F : Fl} {d e n m : Node} (hF : F.Lawful) (hd : d.XmlOk F) (ht : d.isTag = true)
    (h : SavedAs F d e) (hp : SamePlace d e n m) (hfps : NumberAttr F d "fps") {r : ℚ} (hr : 0 < r)
    (hf : readFps F (some d.attrs) = .ok (some r)) {x : Node} (hx : x ∈ waypointTags n) {q : ℚ}
    (hq : x.attrs.get "time" = some (.t ⟨q, some r⟩)) (hrq : r ≤ q) (hq53 : q / r < 2 ^ 53)
    (hpast : q - r * ⌊q / r⌋ < 9999995 / 10 ^ 11) (hw : ∀ k : ℕ, F.rnd (q / r) ≠ k) {par : Bool} :
    ∀ ws, waypoints F ⟨some e.attrs, par⟩ m ≠ .ok ws := by
  have hwhole := hw
  clear hw
  intro ws hw
  have h0 : 0 ≤ q := hr.le.trans hrq
  have hf' := c120_fps hd ht h hF hfps hf
  obtain ⟨rfl, hn, htn⟩ := samePlace_opened hd ht h hp
  obtain ⟨a, ha, hroot⟩ := fps_root hf'
  have hno : T.new F (some e.attrs) (.str (attrSpaces (T.str F ⟨q, some r⟩))) = .error .value := by
    rw [ha, attrSpaces_id (str_plain_tiny hF h0 hr hq53 hpast hwhole)]
    obtain ⟨n, d, hnq, -, hnew⟩ := rate_tiny hF h0 hr hq53 hroot hpast hwhole
    rw [hnew, if_neg]
    rintro rfl
    have := (framesPast_bounds (q := q) hr).2
    rw [Nat.cast_zero, zero_mul, zero_add] at hnq
    linarith
  have htags : waypointTags (n.opened F) = (waypointTags n).map (Node.opened F) := by
    rw [waypointTags, waypointTags, opened_name, opened_tagKids]
    split <;> rfl
  have hxk : x ∈ n.tagKids := by
    rw [waypointTags] at hx
    split at hx
    · simp at hx
    · exact hx
  have hget : (x.opened F).attrs.get "time" = some (.str (attrSpaces (T.str F ⟨q, some r⟩))) := by
    rw [opened_get (xmlOk_tagKids hn x hxk), hq]; rfl
  have hxm : x.opened F ∈ waypointTags (n.opened F) := by rw [htags]; exact List.mem_map_of_mem hx
  rw [waypoints] at hw
  split at hw
  · next he => rw [he] at hxm; simp at hxm
  split at hw
  · cases hw
  next ty _ =>
  split at hw
  · cases hw
  next l hl =>
  have key : ∀ (cs : List Node) (r : List Waypoint), mapRes (Waypoint.fromTag F (some e.attrs) ty) cs = .ok r →
      ∀ y ∈ cs, ∃ w, Waypoint.fromTag F (some e.attrs) ty y = .ok w := by
    intro cs
    induction cs with
    | nil => intro r _ y hy; simp at hy
    | cons z cs ih =>
      intro r hr y hy
      rw [mapRes] at hr
      split at hr
      · cases hr
      · next u hu =>
        split at hr
        · cases hr
        · next us hus =>
          rcases List.mem_cons.1 hy with rfl | hy
          · exact ⟨u, hu⟩
          · exact ih us hus y hy
  obtain ⟨w, hw'⟩ := key _ _ hl _ hxm
  simp only [Waypoint.fromTag, hget, AttrV.toTArg, hno] at hw'
  split at hw' <;> simp at hw'

/-- An animation with a radius that has waypoints at these times. -/
def exRadius (ts : List ℚ) : Node := .tag "canvas" [("fps", .num 24)]
  [.tag "layer" [("type", .str "circle".toList)] [.tag "param" [("name", .str "radius".toList)]
    [.tag "animated" [("type", .str "real".toList)]
      (ts.map fun q => Waypoint.tag ⟨⟨q, some 24⟩, "clamped".toList, "clamped".toList,
        .tag "real" [("value", .str "1.0".toList)] []⟩)]]]

/-- When and where the waypoints of the radius are, as written in a file. -/
def radiusTimes (F : Fl) (d : Node) : Option (Res (List ℚ)) :=
  (elementAt [0, 0, 0] d).map fun n => match waypoints F ⟨some d.attrs, true⟩ n with
    | .error e => .error e
    | .ok ws => .ok (ws.map fun w => w.time.frames)

/-- C157, violated. Two waypoints near to each other may become one; and one a tiny part of a frame past a second makes
the timeline unreadable, or is moved to before the start. -/
theorem c157_fails_few : ∃ e f g,
    radiusTimes double (exRadius [0, 81/8, 81/8 + 1/2^20]) = some (.ok [0, 81/8, 81/8 + 1/2^20]) ∧
    SavedAs double (exRadius [0, 81/8, 81/8 + 1/2^20]) e ∧ radiusTimes double e = some (.ok [0, 81/8]) ∧
    radiusTimes double (exRadius [0, 24 + 1/2^15]) = some (.ok [0, 24 + 1/2^15]) ∧
    SavedAs double (exRadius [0, 24 + 1/2^15]) f ∧ radiusTimes double f = some (.error .value) ∧
    radiusTimes double (exRadius [0, 1/2^15]) = some (.ok [0, 1/2^15]) ∧
    SavedAs double (exRadius [0, 1/2^15]) g ∧ radiusTimes double g = some (.ok [0, -5]) := by
  refine ⟨(exRadius [0, 81/8, 81/8 + 1/2^20]).opened double, (exRadius [0, 24 + 1/2^15]).opened double,
    (exRadius [0, 1/2^15]).opened double, by decide +kernel, ⟨fun _ => true, ?_⟩, by decide +kernel,
    by decide +kernel, ⟨fun _ => true, ?_⟩, by decide +kernel, by decide +kernel, ⟨fun _ => true, ?_⟩,
    by decide +kernel⟩ <;>
  exact parse_docText (xmlOkB_ok (by decide +kernel)) rfl

/-- The radius of the circle. -/
def exRadiusLine (ts : List ℚ) : Node := .tag "animated" [("type", .str "real".toList)]
  (ts.map fun q => Waypoint.tag ⟨⟨q, some 24⟩, "clamped".toList, "clamped".toList,
    .tag "real" [("value", .str "1.0".toList)] []⟩)

/-- Three waypoints, one of them between frames. -/
example : (exRadius [0, 81/8, 30]).XmlOk double ∧ NumberAttr double (exRadius [0, 81/8, 30]) "fps" ∧
    readFps double (some (exRadius [0, 81/8, 30]).attrs) = .ok (some 24) ∧
    elementAt [0, 0, 0] (exRadius [0, 81/8, 30]) = some (exRadiusLine [0, 81/8, 30]) ∧
    BetweenFrames double 24 (exRadiusLine [0, 81/8, 30]) ∧
    waypoints double ⟨some (exRadius [0, 81/8, 30]).attrs, true⟩ (exRadiusLine [0, 81/8, 30]) =
      .ok ([0, 81/8, 30].map fun q => ⟨⟨q, some 24⟩, "clamped".toList, "clamped".toList,
        .tag "real" [("value", .str "1.0".toList)] []⟩) ∧
    FarApart 24 ([0, 81/8, 30].map fun q => ⟨⟨q, some 24⟩, "clamped".toList, "clamped".toList,
        .tag "real" [("value", .str "1.0".toList)] []⟩) := by
  refine ⟨xmlOkB_ok (by decide +kernel), ?_, by decide +kernel, by decide +kernel, ?_, by decide +kernel, ?_⟩
  · intro a ha
    injection ha with ha
    exact .inr (.inl ⟨24, ha.symm, by show double.rnd 24 = 24; decide +kernel⟩)
  · intro x hx
    have hx' : x ∈ [0, 81/8, 30].map fun q => Waypoint.tag ⟨⟨q, some 24⟩, "clamped".toList, "clamped".toList,
      .tag "real" [("value", .str "1.0".toList)] []⟩ := hx
    obtain ⟨q, hq, rfl⟩ := List.mem_map.1 hx'
    refine ⟨q, rfl, ?_⟩
    simp only [List.mem_cons, List.not_mem_nil, or_false] at hq
    rcases hq with rfl | rfl | rfl
    · exact ⟨by norm_num, by norm_num, .inl ⟨0, by decide +kernel⟩⟩
    · exact ⟨by norm_num, by norm_num, .inr (by decide +kernel)⟩
    · exact ⟨by norm_num, by norm_num, .inr (by decide +kernel)⟩
  · intro a ha b hb
    obtain ⟨p, hp, rfl⟩ := List.mem_map.1 ha
    obtain ⟨q, hq, rfl⟩ := List.mem_map.1 hb
    simp only [List.mem_cons, List.not_mem_nil, or_false] at hp hq
    rcases hp with rfl | rfl | rfl <;> rcases hq with rfl | rfl | rfl <;> simp only [slack] <;> decide +kernel

end Sang
