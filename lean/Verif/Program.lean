import Verif.Bywords
import Verif.Animation
import Verif.Text
import Verif.Format

/-!
# Whole programs: `bywords/__main__.py`, `bywords/adjust.py`, `docs/examples/*.py`

These open an animation, find layers in it, change some of them, and save it. A layer object found in a
document is known here by its place: the numbers of the children to go to, from the root.
-/

namespace Sang

/-- Where something is in a document. -/
abbrev Place := List ℕ

mutual
/-- The element at `p`, and all elements in it, with their places, in document order. -/
def placesOf (p : Place) : Node → List (Place × Node)
  | .text _ => []
  | .tag n a ks => (p, .tag n a ks) :: placesIn p 0 ks

/-- The same for children of the element at `p`, of which the first is number `i`. -/
def placesIn (p : Place) (i : ℕ) : List Node → List (Place × Node)
  | [] => []
  | x :: r => placesOf (p ++ [i]) x ++ placesIn p (i + 1) r
end

/-- `Layer.from_tag(tag)` for an element at some place. -/
def asLayerAt (x : Place × Node) : Res (Place × LObj) :=
  match asLayer x.2 with
  | .error e => .error e
  | .ok c => .ok (x.1, c)

/-- `layer.find_all(...)` as `findAllLayers`, with the places of what is found.
`sangfroid/layer/layer.py:130-282`. The layer (or animation) that is searched is at `p`. -/
def findAllAt (F : Fl) (d : Defaults) (a : FindArgs) (p : Place) (n : Node) :
    Res (List (Place × LObj)) :=
  match posArg a with
  | .error e => .error e
  | .ok (sp, kw) => match criteria a kw with
    | .error e => .error e
    | .ok ts =>
      match filterRes (fun x => matcher F d sp ts x.2) (placesIn p 0 n.kids) with
      | .error e => .error e
      | .ok l => mapRes asLayerAt l

/-- What a statement does to the document when what it does to the element at a place is `g`. That the
element is no longer in the document is not modelled. -/
def actAt (g : Node → Node × Res Unit) : Place → Node → Node × Res Unit
  | [], n => g n
  | _ :: _, .text s => (.text s, .error .unmodelled)
  | i :: p, .tag n a ks => match ks[i]? with
    | none => (.tag n a ks, .error .unmodelled)
    | some x => (.tag n a (ks.set i (actAt g p x).1), (actAt g p x).2)

/-- `for item in items: ...`, where what is done to each item is `g`. The first exception ends it. -/
def forEach (g : Node → Node × Res Unit) : List Place → Node → Node × Res Unit
  | [], d => (d, .ok ())
  | p :: r, d => match actAt g p d with
    | (d, .error e) => (d, .error e)
    | (d, .ok ()) => forEach g r d

/-- What happens to a layer when what happens to the value `layer[f]` is `g`.
`sangfroid/layer/layer.py:91-95`. -/
def onParam (f : Str) (g : VCls → Node → Node × Res Unit) (n : Node) : Node × Res Unit :=
  match findParam f n with
  | none => (n, .error .key)
  | some p => match nameAndValue p with
    | .error e => (n, .error e)
    | .ok (_, c, v) => (updFirst (isParam f) (replaceValue (g c v).1) n, (g c v).2)

/-! ## The examples in the documentation -/

/-- The loop of `docs/examples/stroop.py:6-7`, on the root of the document. -/
def stroop (F : Fl) (d : Defaults) (n : Node) : Node × Res Unit :=
  match findAllAt F d {kw := [("text", .pv (.str "blue".toList))]} [] n with
  | .error e => (n, .error e)
  | .ok xs => forEach (setParam F "color".toList (.str "#FF00FF".toList)) (xs.map Prod.fst) n

/-- `TRANSLATION.get(s, "je ne sais pas quoi")`, `docs/examples/french.py:3-6,12-14`. -/
def translation (s : Str) : Str :=
  if s = "blue".toList then "bleu".toList
  else if s = "red".toList then "rouge".toList
  else "je ne sais pas quoi".toList

/-- The body of the loop of `docs/examples/french.py:12-15`. -/
def frenchLayer (F : Fl) (pr : Char → Bool) (root : Option Attrs) (n : Node) : Node × Res Unit :=
  match getParam "text".toList n with
  | .error e => (n, .error e)
  | .ok (c, v) => match valueStr F pr root c v with
    | .error e => (n, .error e)
    | .ok s => setParam F "text".toList (.str (translation s)) n

/-- The loop of `docs/examples/french.py:11-15`, on the root of the document. -/
def french (F : Fl) (pr : Char → Bool) (d : Defaults) (n : Node) : Node × Res Unit :=
  match findAllAt F d {pos := [.str "text".toList]} [] n with
  | .error e => (n, .error e)
  | .ok xs => forEach (frenchLayer F pr (animRoot n)) (xs.map Prod.fst) n

/-! ## Bywords -/

/-- The groups that are for bywords, with their places: `bywords/bywords.py:143-144`. -/
def bwWantedAt (F : Fl) (xs : List (Place × LObj)) : List (Place × Node) :=
  xs.filterMap fun x => match getDesc F x.2.2 with
    | some s => if "bywords".toList.isPrefixOf (lower s) then some (x.1, x.2.2) else none
    | none => none

/-- The places of the text layers of a group, in the order in which `BywordsGroup` holds them:
`bywords/bywords.py:50-54`. -/
def bwTextsAt (F : Fl) (d : Defaults) (g : Place × Node) : Res (List Place) :=
  match findAllAt F d {pos := [.str "text".toList]} g.1 g.2 with
  | .error e => .error e
  | .ok xs => .ok (xs.map Prod.fst).reverse

/-- Where the items are: for each group for bywords, in the order in which `find_all` finds them, the
places of its text layers. The item `(i, j)` of `Verif.Bywords` is the `j`th of the `i`th.
`bywords/bywords.py:50-54,140-145`. -/
def bwPlaces (F : Fl) (d : Defaults) (n : Node) : Res (List (List Place)) :=
  match findAllAt F d {pos := [.cls "Group".toList]} [] n with
  | .error e => .error e
  | .ok xs => mapRes (bwTextsAt F d) (bwWantedAt F xs)

/-- The place of an item. -/
def placeOf (tbl : List (List Place)) (item : ℕ × ℕ) : Option Place :=
  match tbl[item.1]? with
  | none => none
  | some l => l[item.2]?

/-- What happens to the document when what happens to the value `item['text']` is `g`. -/
def onText (tbl : List (List Place)) (item : ℕ × ℕ) (g : Node → Node × Res Unit) (n : Node) :
    Node × Res Unit :=
  match placeOf tbl item with
  | none => (n, .error .unmodelled)
  | some p => actAt (onParam "text".toList fun _ => g) p n

/-- Where the texts of layers are, for finding the frame rate: inside the document. -/
def textCtx (n : Node) : Ctx := ⟨animRoot n, true⟩

/-- `item['text'].is_animated = False` for each of the items, `bywords/bywords.py:77-78`. -/
def clearTexts (F : Fl) (ctx : Ctx) (tbl : List (List Place)) : List (ℕ × ℕ) → Node → Node × Res Unit
  | [], n => (n, .ok ())
  | x :: r, n => match onText tbl x (unAnimate F ctx) n with
    | (n, .error e) => (n, .error e)
    | (n, .ok ()) => clearTexts F ctx tbl r n

/-- `firstMatch` with what it does to the document, `bywords/bywords.py:75-78,150-159`. -/
def firstMatchDoc (F : Fl) (ctx : Ctx) (tbl : List (List Place)) (letters : Bool) (l : SubLine) :
    List BGroup → Node → Node × Res (Option (List WordTiming))
  | [], n => (n, .ok none)
  | g :: r, n =>
    if tidy l.text ≠ g.fullText then firstMatchDoc F ctx tbl letters l r n
    else match clearTexts F ctx tbl (g.texts.map BText.item) n with
      | (n, .error e) => (n, .error e)
      | (n, .ok ()) => match bwMatches F letters (tidy l.text) l.duration l.start g with
        | .error e => (n, .error e)
        | .ok (some (w :: ws)) => (n, .ok (some (w :: ws)))
        | .ok _ => firstMatchDoc F ctx tbl letters l r n

/-- `matchLines` with what it does to the document, `bywords/bywords.py:147-163`. -/
def matchLinesDoc (F : Fl) (ctx : Ctx) (tbl : List (List Place)) (letters : Bool)
    (groups : List BGroup) :
    List WordTiming → List SubLine → Node → Node × Res (List WordTiming)
  | d, [], n => (n, .ok d)
  | d, l :: r, n => match firstMatchDoc F ctx tbl letters l groups n with
    | (n, .error e) => (n, .error e)
    | (n, .ok (some ws)) =>
      matchLinesDoc F ctx tbl letters groups (ws.foldl (fun d w => putWord w d) d) r n
    | (n, .ok none) => matchLinesDoc F ctx tbl letters groups d r n

/-- The items that have words, each once, in some order: `set([o.item for o in bw])`,
`bywords/adjust.py:33`. Which order is up to Python; here `perm` says. -/
def itemsOf (perm : List (ℕ × ℕ) → List (ℕ × ℕ)) (words : List WordTiming) : List (ℕ × ℕ) :=
  perm (words.map WordTiming.item).dedup

/-- The loop of `adjust`, `bywords/adjust.py:33-48`. -/
def adjustItems (F : Fl) (ctx : Ctx) (tbl : List (List Place)) (words : List WordTiming) :
    List (ℕ × ℕ) → Node → Node × Res Unit
  | [], n => (n, .ok ())
  | x :: r, n => match onText tbl x (adjustText F ctx x words) n with
    | (n, .error e) => (n, .error e)
    | (n, .ok ()) => adjustItems F ctx tbl words r n

/-- `adjust(subtitles, animation, letter_at_a_time)`, `bywords/adjust.py:21-48`, on the root of the
document. -/
def adjust (F : Fl) (d : Defaults) (perm : List (ℕ × ℕ) → List (ℕ × ℕ)) (letters : Bool)
    (lines : List SubLine) (n : Node) : Node × Res Unit :=
  match bwGroups F d n, bwPlaces F d n with
  | .error e, _ => (n, .error e)
  | _, .error e => (n, .error e)
  | .ok groups, .ok tbl =>
    match matchLinesDoc F (textCtx n) tbl letters groups [] lines n with
    | (n, .error e) => (n, .error e)
    | (m, .ok dict) =>
      let words := dict.insertionSort fun a b => a.time ≤ b.time
      adjustItems F (textCtx n) tbl words (itemsOf perm words) m

/-! ## From file to file -/

/-- A program that opens the animation `src`, does something to it, and saves it as `dst`:
`docs/examples/stroop.py`, `docs/examples/french.py`, `bywords/__main__.py:41-50` (where `src` and `dst`
are the same, and the subtitles are given). The disk at the end, and whether there was an exception. -/
def runProgram {D : Type} (C : Codec D) (prog : D → D × Res Unit) (src dst : Str) (fs : Disk) :
    Disk × Res Unit :=
  match Anim.load C fs src with
  | .error e => (fs, .error e)
  | .ok a => match prog a.doc with
    | (_, .error e) => (fs, .error e)
    | (n, .ok ()) =>
      let s := Anim.save C fs { a with doc := n } (some dst)
      (s.disk, s.res)

/-- The disk at each point where the process running such a program could die: while it reads and works nothing is
written, and then it saves. -/
def runStates {D : Type} (C : Codec D) (prog : D → D × Res Unit) (src dst : Str) (fs : Disk) : List Disk :=
  match Anim.load C fs src with
  | .error _ => [fs]
  | .ok a => match prog a.doc with
    | (_, .error _) => [fs]
    | (n, .ok ()) => fs :: (Anim.save C fs { a with doc := n } (some dst)).crash

/-- The name of the subtitles when none is given, `bywords/__main__.py:29-32`:
`os.path.splitext(sif)[0]+'.srt'`. -/
def srtName (sif : Str) : Str := sif.take (sif.length - (splitext sif).length) ++ ".srt".toList

end Sang
