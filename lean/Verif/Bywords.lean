import Verif.Find
import Verif.Timeline

/-!
# Showing text word by word: `bywords/bywords.py`, `bywords/adjust.py`

Times are floats, in seconds; subtitles are timed in whole milliseconds. A text layer found in a
group is a Python object of its own, which is known here by the number of its group and its number
in that group.
-/

namespace Sang

/-! ## Matching lines with groups -/

/-- `[ \t\n]`, `bywords/bywords.py:15`. -/
def bwBlank (c : Char) : Bool := c == ' ' || c == '\t' || c == '\n'

/-- `[a-z0-9 ]`, `bywords/bywords.py:18`. -/
def bwLetter (c : Char) : Bool :=
  (decide (97 ≤ c.toNat) && decide (c.toNat ≤ 122)) || isDig c || c == ' '

/-- `BywordsGroup.tidy_string(n)`, `bywords/bywords.py:59-61`. Simplification: `lower` only changes
ASCII letters (some others, such as the Kelvin sign, have ASCII lower case). -/
def tidy (s : Str) : Str := (lower s).filter bwLetter

/-- A text layer in a group: the object, and its description. `bywords/bywords.py:50-54`. -/
structure BText where
  item : ℕ × ℕ
  desc : Str
  deriving DecidableEq

/-- A `BywordsGroup`: its description, and its text layers, top first.
`bywords/bywords.py:46-54`. -/
structure BGroup where
  desc : Str
  texts : List BText
  deriving DecidableEq

/-- `group.full_text`, `bywords/bywords.py:56-57`. -/
def BGroup.fullText (g : BGroup) : Str := join [' '] (g.texts.map fun t => tidy t.desc)

/-! ## Cutting a description into words -/

/-- `WHITESPACE.split(desc)` without the empty strings: the longest runs of blanks and of others.
`bywords/bywords.py:15,80-82`. -/
def runs : Str → List Str
  | [] => []
  | c :: r => match runs r with
    | (d :: w) :: ws => if bwBlank c = bwBlank d then (c :: d :: w) :: ws else [c] :: (d :: w) :: ws
    | ws => [c] :: ws

/-- The pieces of a description; `NOTHING.split` cuts between any two characters.
`bywords/bywords.py:16,69-72,80-82`. -/
def pieces (letters : Bool) (desc : Str) : List Str :=
  if letters then desc.map fun c => [c] else runs desc

/-- The loop over the pieces: the values of `i` at which a text is recorded.
`bywords/bywords.py:84-97`. -/
def cuts : ℕ → List Str → List ℕ
  | _, [] => []
  | i, [w] => [i + w.length]
  | i, w :: v :: r =>
    (i + w.length) ::
      (if strip v = [] then cuts (i + w.length + v.length) r else cuts (i + w.length) (v :: r))

/-- The texts recorded for one layer, `bywords/bywords.py:77-97`. -/
def shownTexts (letters : Bool) (desc : Str) : List Str :=
  (cuts 0 (pieces letters desc)).map desc.take

/-! ## Times -/

/-- A `WordTiming`, `bywords/bywords.py:25-29`. -/
structure WordTiming where
  text : Str
  item : ℕ × ℕ
  time : ℚ
  deriving DecidableEq

/-- The loop that sets the times, `bywords/bywords.py:104-107`. `time` is in milliseconds;
the first is the whole number of the subtitle's start, to which Python adds a float after rounding it
to one. That makes no difference below 2^53 milliseconds. -/
def setTimes (F : Fl) (perLetter : ℚ) : ℚ → List (Str × (ℕ × ℕ)) → List WordTiming
  | _, [] => []
  | time, (s, x) :: r =>
    ⟨s, x, F.rnd (time / 1000)⟩ ::
      setTimes F perLetter (F.rnd (time + F.rnd (s.length * perLetter))) r

/-- All texts of a group in the order in which they come, `bywords/bywords.py:77-97`. -/
def BGroup.shown (letters : Bool) (g : BGroup) : List (Str × (ℕ × ℕ)) :=
  g.texts.flatMap fun t => (shownTexts letters t.desc).map fun s => (s, t.item)

/-- `group.matches(s, duration, start, letter_at_a_time)`, `bywords/bywords.py:63-109`. Line 78, which
un-animates the text of each layer, is `unAnimate`; that it can raise if a layer's text is missing or
is an animation without waypoints is not modelled here. -/
def bwMatches (F : Fl) (letters : Bool) (s : Str) (duration start : ℤ) (g : BGroup) :
    Res (Option (List WordTiming)) :=
  if s ≠ g.fullText then .ok none
  else
    let texts := g.shown letters
    let total := (texts.map fun p => p.1.length).sum
    if total = 0 then .error .zeroDiv
    else .ok (some (setTimes F (F.rnd (duration / total)) start texts))

/-! ## All lines -/

/-- A subtitle: start and duration in milliseconds, and text. `bywords/bywords.py:131-138`. -/
structure SubLine where
  start : ℤ
  duration : ℤ
  text : Str
  deriving DecidableEq

/-- The first group that matches, `bywords/bywords.py:150-159`. -/
def firstMatch (F : Fl) (letters : Bool) (l : SubLine) : List BGroup → Res (Option (List WordTiming))
  | [] => .ok none
  | g :: r => match bwMatches F letters (tidy l.text) l.duration l.start g with
    | .error e => .error e
    | .ok (some (w :: ws)) => .ok (some (w :: ws))
    | .ok _ => firstMatch F letters l r

/-- `result[word.time] = word`, `bywords/bywords.py:160-161`. -/
def putWord (w : WordTiming) : List WordTiming → List WordTiming
  | [] => [w]
  | x :: r => if x.time = w.time then w :: r else x :: putWord w r

/-- The loop over the lines: the dict of words, and the lines without a match.
`bywords/bywords.py:147-163`. -/
def matchLines (F : Fl) (letters : Bool) (groups : List BGroup) :
    List WordTiming → List Str → List SubLine → Res (List WordTiming × List Str)
  | d, no, [] => .ok (d, no)
  | d, no, l :: r => match firstMatch F letters l groups with
    | .error e => .error e
    | .ok (some ws) => matchLines F letters groups (ws.foldl (fun d w => putWord w d) d) no r
    | .ok none => matchLines F letters groups d (no ++ [tidy l.text]) r

/-- `Bywords(srt, sif, letter_at_a_time)`, given the groups: `words` and `no_matches`.
`bywords/bywords.py:122-165`. -/
def bywords (F : Fl) (letters : Bool) (groups : List BGroup) (lines : List SubLine) :
    Res (List WordTiming × List Str) :=
  match matchLines F letters groups [] [] lines with
  | .error e => .error e
  | .ok (d, no) => .ok (d.insertionSort fun a b => a.time ≤ b.time, no)

/-! ## The groups of an animation -/

/-- `BywordsGroup(group)`, `bywords/bywords.py:46-61`: a text layer without a description raises
`AttributeError`. `i` numbers the group. -/
def bwGroup (F : Fl) (d : Defaults) (i : ℕ) (desc : Str) (n : Node) : Res BGroup :=
  match findAllLayers F d {pos := [.str "text".toList]} true n with
  | .error e => .error e
  | .ok xs =>
    match mapRes (fun (p : LObj × ℕ) => match getDesc F p.1.2 with
        | none => (.error .attr : Res BText)
        | some s => .ok ⟨(i, p.2), s⟩) xs.reverse.zipIdx with
    | .error e => .error e
    | .ok ts => .ok ⟨desc, ts⟩

/-- The descriptions of the groups that are for bywords, with the groups, `bywords/bywords.py:143-144`. -/
def bwWanted (F : Fl) (xs : List LObj) : List (Str × Node) :=
  xs.filterMap fun x => match getDesc F x.2 with
    | some s => if "bywords".toList.isPrefixOf (lower s) then some (s, x.2) else none
    | none => none

/-- `bywords.groups`, `bywords/bywords.py:140-145`: sorted by description. -/
def bwGroups (F : Fl) (d : Defaults) (n : Node) : Res (List BGroup) :=
  match findAllLayers F d {pos := [.cls "Group".toList]} true n with
  | .error e => .error e
  | .ok xs =>
    match mapRes (fun (p : (Str × Node) × ℕ) => bwGroup F d p.2 p.1.1 p.1.2) (bwWanted F xs).zipIdx with
    | .error e => .error e
    | .ok gs => .ok (gs.insertionSort fun a b => a.desc ≤ b.desc)

/-! ## Animating the text layers -/

/-- `set_constant_waypoint(tl, time, value)`, `bywords/adjust.py:7-19`, on the element of a layer's
text. `time` is as `str` writes it. `tl += waypoint` is `Timeline.__iadd__`,
`sangfroid/value/value.py:324-327`, whose result is dropped. -/
def setConstant (F : Fl) (ctx : Ctx) (time value : Str) (n : Node) : Node × Res Unit :=
  match newValue F .string (.str value) with
  | .error e => (n, .error e)
  | .ok v => match T.new F ctx.root (.str (time ++ ['s'])) with
    | .error e => (n, .error e)
    | .ok t =>
      match Waypoint.new F none (.t t) (.val .string none v) "constant".toList "constant".toList with
      | .error e => (n, .error e)
      | .ok w => addWaypoints F ctx .string [w] true n

/-- The words of one layer put on its timeline, `bywords/adjust.py:39-48`. -/
def setWords (F : Fl) (ctx : Ctx) : List WordTiming → Node → Node × Res Unit
  | [], n => (n, .ok ())
  | w :: r, n => match setConstant F ctx (reprF F w.time) w.text n with
    | (n, .error e) => (n, .error e)
    | (n, .ok ()) => setWords F ctx r n

/-- What `adjust` does to the text of one layer, `bywords/adjust.py:33-48`; `words` is all that were
scheduled. (`obj.is_animated = True`, line 34, sets an attribute that nothing reads.) -/
def adjustText (F : Fl) (ctx : Ctx) (item : ℕ × ℕ) (words : List WordTiming) (n : Node) :
    Node × Res Unit :=
  match setConstant F ctx ['0'] [] n with
  | (n, .error e) => (n, .error e)
  | (n, .ok ()) => setWords F ctx (words.filter fun w => w.item = item) n

end Sang
