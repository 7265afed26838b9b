import Verif.Spec.HeaderSaved
import Verif.Props.SaveOpen
import Verif.Props.Animation

/-! # C142: the header and the keyframes are the same after saving and opening -/

namespace Sang
open Spec

theorem plain_numCh {s : Str} (h : ∀ c ∈ s, numCh c = true) : Plain s := by
  intro c hc
  refine ⟨?_, ?_, ?_⟩ <;> rintro rfl <;> exact absurd (h _ hc) (by decide)

theorem plainAttrs_get {F : Fl} {n : Node} (hn : n.XmlOk F) (hp : PlainAttrs F n) (k : String) :
    (n.opened F).attrs.get k = (n.attrs.get k).map fun a => .str (a.str' F) := by
  rw [opened_get hn]
  cases h : n.attrs.get k with
  | none => rfl
  | some a =>
    simp only [Option.map_some, Option.some.injEq, AttrV.str.injEq]
    rcases hp k a h with ⟨s, rfl, hs⟩ | ⟨q, rfl, hq⟩ | ⟨i, rfl⟩
    · exact attrSpaces_id hs
    · refine attrSpaces_id (plain_numCh ?_)
      exact reprF_numCh F q
    · refine attrSpaces_id (plain_numCh ?_)
      exact intStr_numCh i

section
variable {F : Fl} {d e : Node} (hF : F.Lawful) (hd : d.XmlOk F) (ht : d.isTag = true) (h : SavedAs F d e)
  (hp : PlainAttrs F d)
include hF hd ht h hp

/-- C142. Every header field is the same: numbers, whole numbers and texts, and the default if there is none. -/
theorem c142_header (f : HField) (v : HVal) (hint : f.type = .int → ∀ q, d.attrs.get f.name ≠ some (.num q))
    (hv : getHeader F f d = .ok v) : getHeader F f e = .ok v := by
  obtain rfl := savedAs_opened hd ht h
  rw [getHeader] at hv ⊢
  rw [plainAttrs_get hd hp]
  cases ha : d.attrs.get f.name with
  | none => rw [ha] at hv; exact hv
  | some a =>
    rw [ha] at hv hint
    simp only [Option.map_some] at hv ⊢
    have hk := hp _ _ ha
    cases ht : f.type with
    | float =>
      rw [ht] at hv
      simp only [HType.read] at hv ⊢
      rcases hk with ⟨s, rfl, -⟩ | ⟨q, rfl, hq⟩ | ⟨i, rfl⟩
      · exact hv
      · rw [AttrV.str', AttrV.toFloat, pyFloat_reprF hF hq]
        rw [AttrV.toFloat, show F.rnd q = q from hq] at hv
        exact hv
      · rw [AttrV.str', AttrV.toFloat, pyFloat_intStr]
        exact hv
    | int =>
      rw [ht] at hv
      simp only [HType.read] at hv ⊢
      rcases hk with ⟨s, rfl, -⟩ | ⟨q, rfl, hq⟩ | ⟨i, rfl⟩
      · exact hv
      · exact absurd rfl (hint ht q)
      · rw [AttrV.str', AttrV.toInt, pyInt_intStr]
        exact hv
    | str =>
      rw [ht] at hv
      exact hv

omit hF in
/-- C142. The size is the same. -/
theorem c142_size (hint : ∀ k ∈ ["width", "height"], ∀ q, d.attrs.get k ≠ some (.num q)) (s : ℤ × ℤ)
    (hs : animSize d = .ok s) : animSize e = .ok s := by
  obtain rfl := savedAs_opened hd ht h
  have key : ∀ k ∈ ["width", "height"], ∀ i, intAttr d k = .ok i → intAttr (d.opened F) k = .ok i := by
    intro k hk i hi
    rw [intAttr] at hi ⊢
    rw [plainAttrs_get hd hp]
    cases ha : d.attrs.get k with
    | none => rw [ha] at hi; cases hi
    | some a =>
      rw [ha] at hi
      simp only [Option.map_some] at hi ⊢
      rcases hp _ _ ha with ⟨s, rfl, -⟩ | ⟨q, rfl, hq⟩ | ⟨j, rfl⟩
      · exact hi
      · exact absurd ha (hint k hk q)
      · rw [AttrV.str', AttrV.toInt, pyInt_intStr]
        exact hi
  rw [animSize] at hs ⊢
  cases h1 : intAttr d "width" with
  | error e => rw [h1] at hs; cases hs
  | ok w =>
    cases h2 : intAttr d "height" with
    | error e => rw [h1] at hs; simp only [h2] at hs; cases hs
    | ok g =>
      rw [key _ (by simp) w h1]
      simp only [key _ (by simp) g h2]
      rw [h1] at hs
      simp only [h2] at hs
      exact hs

omit hF ht h in
theorem floatsAttr_opened {k : String} {l : List ℚ} (hl : floatsAttr F d k = .ok l) :
    floatsAttr F (d.opened F) k = .ok l := by
  rw [floatsAttr] at hl ⊢
  rw [plainAttrs_get hd hp]
  cases ha : d.attrs.get k with
  | none => rw [ha] at hl; cases hl
  | some a =>
    rw [ha] at hl
    cases a with
    | str s => exact hl
    | _ => cases hl

omit hF in
/-- C142. The view box and the background are the same. -/
theorem c142_viewbox_background :
    (∀ l, viewbox F d = .ok l → viewbox F e = .ok l) ∧ (∀ c, background F d = .ok c → background F e = .ok c) := by
  obtain rfl := savedAs_opened hd ht h
  refine ⟨fun l hl => floatsAttr_opened hd hp hl, fun c hc => ?_⟩
  rw [background] at hc ⊢
  cases hl : floatsAttr F d "bgcolor" with
  | error e => rw [hl] at hc; cases hc
  | ok l => rw [floatsAttr_opened hd hp hl]; rw [hl] at hc; exact hc

theorem plain_fps {r : Option ℚ} (hr : readFps F (some d.attrs) = .ok r) : readFps F (some e.attrs) = .ok r := by
  refine c120_fps hd ht h hF ?_ hr
  intro a ha
  rcases hp _ _ ha with ⟨s, rfl, -⟩ | h | h
  · exact Or.inl ⟨s, rfl⟩
  · exact Or.inr (Or.inl h)
  · exact Or.inr (Or.inr h)

theorem newText_opened {s : Str} {t : T} (hv : T.new F (some d.attrs) (.str s) = .ok t) :
    T.new F (some e.attrs) (.str s) = .ok t := by
  rw [T.new] at hv ⊢
  cases hr : readFps F (some d.attrs) with
  | error e => rw [hr] at hv; cases hv
  | ok f =>
    rw [plain_fps hF hd ht h hp hr]
    rw [hr] at hv
    exact hv

/-- C142. The times at which the animation begins and ends are the same, and so is the number of frames. -/
theorem c142_times (hc : d.name = "canvas") :
    (∀ t, (∀ a, d.attrs.get "begin-time" = some a → ∃ s, a = .str s) → beginTime F d = .ok t → beginTime F e = .ok t) ∧
    (∀ t, endTime F d = .ok t → endTime F e = .ok t) ∧
    (∀ i, framecount F d = .ok i → framecount F e = .ok i) := by
  obtain rfl := savedAs_opened hd ht h
  have hr : animRoot d = some d.attrs := by simp [animRoot, canvasRoot, hc]
  have hr' : animRoot (d.opened F) = some (d.opened F).attrs := by
    simp [animRoot, canvasRoot, opened_name, hc]
  have nt : ∀ {s t}, T.new F (some d.attrs) (.str s) = .ok t → T.new F (some (d.opened F).attrs) (.str s) = .ok t :=
    fun hv => newText_opened hF hd ht h hp hv
  refine ⟨fun t ha hv => ?_, fun t hv => ?_, fun i hi => ?_⟩
  · rw [beginTime, hr] at hv
    rw [beginTime, hr', plainAttrs_get hd hp]
    cases hg : d.attrs.get "begin-time" with
    | none => rw [hg] at hv; cases hv
    | some a =>
      obtain ⟨s, rfl⟩ := ha a hg
      rw [hg] at hv
      exact nt hv
  · rw [endTime, hr] at hv
    rw [endTime, hr', plainAttrs_get hd hp]
    cases hg : d.attrs.get "end_time" with
    | none => rw [hg] at hv; exact nt hv
    | some a => rw [hg] at hv; exact nt hv
  · have key : ∀ {f k q}, parseAttr F f d.attrs k = .ok q → parseAttr F f (d.opened F).attrs k = .ok q := by
      intro f k q hq
      rw [parseAttr] at hq ⊢
      rw [plainAttrs_get hd hp]
      cases hg : d.attrs.get k with
      | none => rw [hg] at hq; cases hq
      | some a =>
        rw [hg] at hq
        cases a with
        | str s => exact hq
        | _ => cases hq
    rw [framecount, hr] at hi
    rw [framecount, hr']
    cases hn : T.new F (some d.attrs) (.num (-1)) with
    | error e => rw [hn] at hi; cases hi
    | ok t =>
      have : T.new F (some (d.opened F).attrs) (.num (-1)) = .ok t := by
        rw [T.new] at hn ⊢
        cases hf : readFps F (some d.attrs) with
        | error e => rw [hf] at hn; cases hn
        | ok f =>
          rw [plain_fps hF hd ht h hp hf]
          rw [hf] at hn
          simp only at hn ⊢
          cases hx : framesOfNumber F f (some d.attrs) (F.rnd (-1)) with
          | error e => rw [hx] at hn; cases hn
          | ok x =>
            rw [hx] at hn
            have : framesOfNumber F f (some (d.opened F).attrs) (F.rnd (-1)) = .ok x := by
              unfold framesOfNumber at hx ⊢
              split
              · next hlt =>
                rw [if_pos hlt] at hx
                simp only at hx ⊢
                cases h1 : parseAttr F f d.attrs "end-time" with
                | error e => rw [h1] at hx; cases hx
                | ok a =>
                  cases h2 : parseAttr F f d.attrs "begin-time" with
                  | error e => rw [h1] at hx; simp only [h2] at hx; cases hx
                  | ok b =>
                    rw [h1] at hx
                    simp only [h2] at hx
                    rw [key h1]
                    simp only [key h2]
                    exact hx
              · next hlt =>
                rw [if_neg hlt] at hx
                exact hx
            rw [this]
            exact hn
      rw [this]
      rw [hn] at hi
      exact hi
end

theorem solid_lasting {s : Str} (hs : Lasting s) : ¬ s.all asciiSpace = true := by
  intro e
  obtain ⟨c, hc, hc2⟩ := hs.1
  apply hc2
  have := List.all_eq_true.1 e c hc
  simp only [asciiSpace, Bool.or_eq_true, beq_iff_eq] at this
  rcases this with (((rfl | rfl) | rfl) | rfl) | rfl <;> decide

theorem lasting_opened {F : Fl} {n : Node} {s : Str} (ht : n.isTag = true) (hs : Lasting s) (h : n.string? = some s) :
    (n.opened F).string? = some s := by
  rw [opened_string ht (solid_lasting hs) h, newlines_id hs.2]

theorem find_isTag {n x : Node} {k : String} (h : n.find k = some x) : x.isTag = true := by
  rw [Node.find] at h
  have := List.mem_of_mem_head? h
  rw [Node.findAll, List.mem_filter] at this
  exact (List.mem_filter.1 this.1).2

theorem forall2_of_map {α β γ : Type} {f : β → γ} {g : α → γ} {l : List α} {l' : List β} (h : l'.map f = l.map g) :
    List.Forall₂ (fun a b => a ∈ l ∧ b ∈ l' ∧ f b = g a) l l' := by
  induction l generalizing l' with
  | nil => cases l' with
    | nil => exact .nil
    | cons => simp at h
  | cons a l ih => cases l' with
    | nil => simp at h
    | cons b l' =>
      simp only [List.map_cons, List.cons.injEq] at h
      exact .cons ⟨by simp, by simp, h.1⟩
        ((ih h.2).imp fun x y hxy => ⟨List.mem_cons_of_mem _ hxy.1, List.mem_cons_of_mem _ hxy.2.1, hxy.2.2⟩)

section
variable {F : Fl} {d e : Node} (hd : d.XmlOk F) (ht : d.isTag = true) (h : SavedAs F d e)
include hd ht h

/-- C142. The name and the description are the same. -/
theorem c142_name_desc :
    (∀ s, Lasting s → animName d = .ok (some s) → animName e = .ok (some s)) ∧
    (∀ s, Lasting s → animDesc d = some s → animDesc e = some s) ∧
    (d.find "name" = none → animName e = animName d) ∧ (d.find "desc" = none → animDesc e = animDesc d) := by
  obtain rfl := savedAs_opened hd ht h
  refine ⟨fun s hs hn => ?_, fun s hs hn => ?_, fun hn => ?_, fun hn => ?_⟩
  · rw [animName] at hn ⊢
    rw [opened_find]
    cases hx : d.find "name" with
    | none => rw [hx] at hn; cases hn
    | some x =>
      rw [hx] at hn
      simp only [Except.ok.injEq] at hn
      simp only [Option.map_some]
      rw [lasting_opened (find_isTag hx) hs hn]
  · rw [animDesc] at hn ⊢
    rw [opened_find]
    cases hx : d.find "desc" with
    | none =>
      rw [hx] at hn
      simp only [Option.some.injEq] at hn
      subst hn
      exact absurd hs.1 (by simp)
    | some x =>
      rw [hx] at hn
      exact lasting_opened (find_isTag hx) hs hn
  · rw [animName, animName, opened_find, hn]; rfl
  · rw [animDesc, animDesc, opened_find, hn]; rfl

omit hd ht h in
theorem keyframes_elts (n : Node) : (keyframes n).map Keyframe.elt = n.findAll "keyframe" := by
  rw [(c61_keyframes_in_order n).1, Node.findAll, Node.descTags, eltsNamedIn_eq _ (by decide)]

/-- C142. The keyframes are the same, in the same order: each with the same time, name and activity. -/
theorem c142_keyframes (hF : F.Lawful) (hp : PlainAttrs F d) (hc : d.name = "canvas") :
    List.Forall₂ (fun k k' : Keyframe =>
      (∀ s t, k.elt.attrs.get "time" = some (.str s) → OneLine s → k.time F = .ok t → k'.time F = .ok t) ∧
      (∀ s, k.elt.attrs.get "active" = some (.str s) → k'.active = k.active) ∧
      (∀ s, k.elt.string? = some s → Lasting s → k.name = s ∧ k'.name = s) ∧
      (k.elt.kids = [] → k.name = [] ∧ k'.name = [])) (keyframes d) (keyframes e) := by
  have hsave := h
  obtain rfl := savedAs_opened hd ht h
  have hm : (keyframes (d.opened F)).map Keyframe.elt = (keyframes d).map fun k => k.elt.opened F := by
    rw [keyframes_elts, opened_findAll, ← keyframes_elts, List.map_map]
    rfl
  refine (forall2_of_map hm).imp ?_
  rintro k k' ⟨hk, hk', he⟩
  have hin : k.elt ∈ d.findAll "keyframe" := by
    rw [← keyframes_elts]; exact List.mem_map_of_mem hk
  have hok : k.elt.XmlOk F := xmlOk_descTags hd _ (List.mem_filter.1 hin).1
  have htag : k.elt.isTag = true := (List.mem_filter.1 (List.mem_filter.1 hin).1).2
  have time : ∀ (n : Node), n.name = "canvas" → ∀ k ∈ keyframes n, ∀ s, k.elt.attrs.get "time" = some (.str s) →
      k.time F = T.new F (some n.attrs) (.str s) := by
    intro n hn k hk s hs
    obtain ⟨anc, h1, h2⟩ := keyframesIn_inside n [n] n.kids (fun x hx => .kid .root hx) k hk
    rw [Keyframe.time, hs, h2, (c86_any_element_as_ref F n k.elt anc (.str s) h1 hn).1]
    rfl
  refine ⟨fun s t hs h1 hv => ?_, fun s hs => ?_, fun s hs hl => ?_, fun h0 => ?_⟩
  · rw [time d hc k hk s hs] at hv
    rw [time (d.opened F) (by rw [opened_name, hc]) k' hk' s]
    · exact newText_opened hF hd ht hsave hp hv
    · rw [he, opened_get hok, hs]
      exact congrArg (fun x => some (AttrV.str x)) (attrSpaces_id h1)
  · rw [Keyframe.active, Keyframe.active, he, opened_get hok, hs]
    simp only [Option.map_some, AttrV.str']
    congr 1
    simp only [AttrV.str.injEq]
    exact decide_eq_decide.2 (attrSpaces_iff (by decide))
  · rw [Keyframe.name, Keyframe.name, he]
    exact ⟨allText_string hs, allText_string (lasting_opened htag hl hs)⟩
  · rw [Keyframe.name, Keyframe.name, he]
    cases hx : k.elt with
    | text s => rw [hx] at htag; cases htag
    | tag m a ks =>
      rw [hx] at h0
      have : ks = [] := h0
      subst this
      exact ⟨rfl, rfl⟩
end

/-! ## The hypotheses are met -/

theorem get_in {as : Attrs} {k : String} {a : AttrV} (h : as.get k = some a) : (k, a) ∈ as := by
  induction as with
  | nil => cases h
  | cons p r ih =>
    obtain ⟨k', a'⟩ := p
    rw [Attrs.get, List.lookup_cons] at h
    cases hk : k == k' with
    | true =>
      rw [hk] at h
      injection h with h
      rw [LawfulBEq.eq_of_beq hk, h]
      exact .head _
    | false =>
      rw [hk] at h
      exact .tail _ (ih h)

/-- Header fields of whole numbers don't hold fractions. -/
def WholeFields (n : Node) : Prop := ∀ f ∈ headerFields, f.type = .int → ∀ q, n.attrs.get f.name ≠ some (.num q)

/-- Whatever file is opened, its header is as `c142_header` wants it. -/
theorem plainAttrs_file (F : Fl) {s : Str} {d : Node} (h : parseXml s = .ok d) (hdir : Direct d) :
    PlainAttrs F d ∧ WholeFields d ∧ d.isTag = true ∧ d.XmlOk F := by
  obtain ⟨ht, hi⟩ := parse_tidy h hdir
  have key : ∀ k a, d.attrs.get k = some a → ∃ v, a = .str v ∧ TidyVal v := by
    intro k a ha
    cases d with
    | text t => cases hi
    | tag n as ks => exact (ht.2.1.2 (k, a) (get_in ha)).2
  refine ⟨fun k a ha => ?_, fun f _ _ q hq => ?_, hi, ht.xmlOk F⟩
  · obtain ⟨v, rfl, hv⟩ := key k a ha
    refine Or.inl ⟨v, rfl, fun c hc => ⟨?_, ?_, ?_⟩⟩ <;> rintro rfl
    · exact hv.2.1 hc
    · exact hv.2.2.1 hc
    · exact hv.2.2.2 hc
  · obtain ⟨v, hv, -⟩ := key _ _ hq
    cases hv

/-- And it stays so when header fields are set. -/
theorem plainAttrs_set {F : Fl} (f : HField) (v : HVal) (hf : f ∈ headerFields) (hv : Settable F f.type v)
    {n : Node} (hn : n.isTag = true) (hp : PlainAttrs F n) (hw : WholeFields n) :
    PlainAttrs F (setHeader F f v.pv n).1 ∧ WholeFields (setHeader F f v.pv n).1 ∧
      (setHeader F f v.pv n).1.isTag = true := by
  have key : ∃ a, (setHeader F f v.pv n).1 = n.setAttr f.name a ∧
      ((∃ s, a = .str s ∧ OneLine s) ∨ (∃ q, a = .num q ∧ F.rep q) ∨ ∃ i, a = .int i) ∧
      (f.type = .int → ∀ q, a ≠ .num q) := by
    obtain ⟨nm, ty, d⟩ := f
    cases ty <;> cases v <;> simp only [Settable] at hv
    · exact ⟨_, rfl, Or.inr (Or.inl ⟨_, rfl, hv⟩), by simp⟩
    · exact ⟨_, rfl, Or.inr (Or.inr ⟨_, rfl⟩), by simp⟩
    · exact ⟨_, rfl, Or.inl ⟨_, rfl, hv⟩, by simp⟩
  obtain ⟨a, e, ha, hai⟩ := key
  rw [e]
  refine ⟨fun k b hb => ?_, fun g hg hgt q hq => ?_, ?_⟩
  · rw [get_setAttr n hn] at hb
    split at hb
    · injection hb with hb; subst hb; exact ha
    · exact hp k b hb
  · rw [get_setAttr n hn] at hq
    split at hq
    · next hname =>
      injection hq with hq
      have same : ∀ f ∈ headerFields, ∀ g ∈ headerFields, g.name = f.name → g.type = f.type := by decide +kernel
      exact hai (by rw [← same f hf g hg hname, hgt]) q hq
    · exact hw g hg hgt q hq
  · cases n with
    | text s => cases hn
    | tag => rfl

/-- C142. Open a file, set any header fields to anything they can be, save, and open again: all the header fields are
what they were before saving. -/
theorem c142_open_set_save_partial {F : Fl} (hF : F.Lawful) {s : Str} {d₀ e : Node} (ho : parseXml s = .ok d₀)
    (hdir : Direct d₀) (sets : List (HField × HVal))
    (hs : ∀ p ∈ sets, p.1 ∈ headerFields ∧ Settable F p.1.type p.2)
    (hd : (sets.foldl (fun n p => (setHeader F p.1 p.2.pv n).1) d₀).XmlOk F)
    (h : SavedAs F (sets.foldl (fun n p => (setHeader F p.1 p.2.pv n).1) d₀) e) :
    ∀ f ∈ headerFields, ∀ v, getHeader F f (sets.foldl (fun n p => (setHeader F p.1 p.2.pv n).1) d₀) = .ok v →
      getHeader F f e = .ok v := by
  obtain ⟨h1, h2, h3, -⟩ := plainAttrs_file F ho hdir
  have key : ∀ (sets : List (HField × HVal)) (n : Node),
      (∀ p ∈ sets, p.1 ∈ headerFields ∧ Settable F p.1.type p.2) → PlainAttrs F n → WholeFields n → n.isTag = true →
      PlainAttrs F (sets.foldl (fun n p => (setHeader F p.1 p.2.pv n).1) n) ∧
      WholeFields (sets.foldl (fun n p => (setHeader F p.1 p.2.pv n).1) n) ∧
      (sets.foldl (fun n p => (setHeader F p.1 p.2.pv n).1) n).isTag = true := by
    intro sets
    induction sets with
    | nil => exact fun n _ a b c => ⟨a, b, c⟩
    | cons p sets ih =>
      intro n hs a b c
      obtain ⟨a', b', c'⟩ := plainAttrs_set p.1 p.2 (hs p (by simp)).1 (hs p (by simp)).2 c a b
      exact ih _ (fun q hq => hs q (by simp [hq])) a' b' c'
  obtain ⟨a, b, c⟩ := key sets d₀ hs h1 h2 h3
  exact fun f hf v hv => c142_header hF hd c h a f v (b f hf) hv

/-- C142's hypotheses are met by whatever is opened, and there is something to open. -/
example : ∃ d, parseXml (docText double (fun _ => true) exAnim) = .ok d ∧ PlainAttrs double d ∧ WholeFields d ∧
    d.isTag = true ∧ d.XmlOk double := by
  have h : (parseXml (docText double (fun _ => true) exAnim)).isOk = true := by decide +kernel
  cases hd : parseXml (docText double (fun _ => true) exAnim) with
  | error e => rw [hd] at h; cases h
  | ok d => exact ⟨d, rfl, plainAttrs_file double hd (parse_tidy_noRefs (by decide +kernel) hd).direct⟩

/-- The whole of C142 on the example of C86. -/
example : (parseXml (docText double (fun _ => true) exAnim)).map animSize = .ok (.ok (480, 270)) ∧
    (parseXml (docText double (fun _ => true) exAnim)).map animName = .ok (.ok (some "Circles".toList)) ∧
    (parseXml (docText double (fun _ => true) exAnim)).map (fun e => (keyframes e).map fun k => k.time double) =
      .ok [.ok ⟨0, some 24⟩, .ok ⟨36, some 24⟩] := by
  decide +kernel

/-- C142 is violated by header fields of text with a tab in it, which is a space after opening. -/
theorem c142_fails_tab :
    let f : HField := ⟨"bgcolor", .str, .str "0.5 0.5 0.5 1.0".toList⟩
    let d := (setHeader double f (.str "1\t2".toList) exAnim).1
    getHeader double f d = .ok (.str "1\t2".toList) ∧
    (parseXml (docText double (fun _ => true) d)).map (getHeader double f) = .ok (.ok (.str "1 2".toList)) := by
  decide +kernel

end Sang
