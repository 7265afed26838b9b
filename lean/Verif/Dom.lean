import Verif.Group
import Mathlib.Logic.Function.Basic

/-!
# Beautiful Soup objects

Elsewhere a document is a value. Here it is what it is in memory: objects which know their parent and
their contents, and which several Python objects can share. Objects are numbered; those below `size`
have been made. Beautiful Soup (bs4 4.12.2) is modelled from its source as published; the
`next_element` and `next_sibling` links are not modelled, and nor is what searching does in a structure
that isn't a tree.
-/

namespace Sang

/-- An object apart from its links: text, or an element with a name and attributes. -/
inductive Lbl where
  | text (s : Str)
  | tag (name : String) (attrs : Attrs)
  deriving DecidableEq

/-- All the objects there are: what each of them is, its `contents`, and its `parent`. -/
structure Dom where
  size : ℕ
  lbl : ℕ → Lbl
  kids : ℕ → List ℕ
  parent : ℕ → Option ℕ

namespace Dom

/-- Nothing has been made yet. -/
def empty : Dom := ⟨0, fun _ => .text [], fun _ => [], fun _ => none⟩

/-! ## Beautiful Soup -/

/-- `x.extract()`: taken out of its parent. Called by the functions below, and by
`sangfroid/value/value.py:80` and so on through them. -/
def extract (x : ℕ) (h : Dom) : Dom :=
  match h.parent x with
  | none => h
  | some p =>
    { h with
      kids := Function.update h.kids p ((h.kids p).erase x)
      parent := Function.update h.parent x none }

/-- `p.insert(pos, x)`: `x` is taken from where it is and put into `p`. The only check is that it isn't
`p` itself. -/
def insert (p pos x : ℕ) (h : Dom) : Dom × Res Unit :=
  if x = p then (h, .error .value)
  else
    let pos := min pos (h.kids p).length
    let pos := if h.parent x = some p ∧ (h.kids p).idxOf x < pos then pos - 1 else pos
    let h := h.extract x
    ({ h with
       kids := Function.update h.kids p ((h.kids p).insertIdx pos x)
       parent := Function.update h.parent x (some p) }, .ok ())

/-- `p.append(x)`. -/
def append (p x : ℕ) (h : Dom) : Dom × Res Unit := h.insert p (h.kids p).length x

/-- `y.insert_before(x)`. -/
def insertBefore (y x : ℕ) (h : Dom) : Dom × Res Unit :=
  match h.parent y with
  | none => (h, .error .value)
  | some p =>
    if x = y then (h, .error .value)
    else
      let h := h.extract x
      h.insert p ((h.kids p).idxOf y) x

/-- `y.insert_after(x)`. -/
def insertAfter (y x : ℕ) (h : Dom) : Dom × Res Unit :=
  match h.parent y with
  | none => (h, .error .value)
  | some p =>
    if x = y then (h, .error .value)
    else
      let h := h.extract x
      h.insert p ((h.kids p).idxOf y + 1) x

/-- `y.replace_with(x)`. -/
def replaceWith (y x : ℕ) (h : Dom) : Dom × Res Unit :=
  match h.parent y with
  | none => (h, .error .value)
  | some p =>
    if x = y then (h, .ok ())
    else if x = p then (h, .error .value)
    else (h.extract y).insert p ((h.kids p).idxOf y) x

/-- `x.clear()`: everything in it is taken out. -/
def clear (x : ℕ) (h : Dom) : Dom := (h.kids x).foldl (fun h c => h.extract c) h

mutual
/-- A new object, with new objects in it: `bs4.Tag(name=…)` and appends, or a copy of an element. -/
def alloc (h : Dom) : Node → Dom × ℕ
  | .text s =>
    ({ h with size := h.size + 1, lbl := Function.update h.lbl h.size (.text s) }, h.size)
  | .tag n a ks =>
    let i := h.size
    let h := { h with size := h.size + 1, lbl := Function.update h.lbl h.size (.tag n a) }
    let r := h.allocAll ks
    ({ r.1 with
       kids := Function.update r.1.kids i r.2
       parent := fun c => if c ∈ r.2 then some i else r.1.parent c }, i)

/-- Several. -/
def allocAll (h : Dom) : List Node → Dom × List ℕ
  | [] => (h, [])
  | x :: r =>
    let a := h.alloc x
    let b := a.1.allocAll r
    (b.1, a.2 :: b.2)
end

/-- What is in `x`, in document order, down to a depth of `fuel`. -/
def descTo (h : Dom) : ℕ → ℕ → List ℕ
  | 0, _ => []
  | fuel + 1, x => (h.kids x).flatMap fun c => c :: h.descTo fuel c

/-- `x.descendants`. No tree is deeper than the number of objects. -/
def desc (h : Dom) (x : ℕ) : List ℕ := h.descTo h.size x

/-- The element as a value, down to a depth of `fuel`. -/
def nodeTo (h : Dom) : ℕ → ℕ → Node
  | 0, _ => .text []
  | fuel + 1, x => match h.lbl x with
    | .text s => .text s
    | .tag n a => .tag n a ((h.kids x).map (h.nodeTo fuel))

/-- The element as a value: what `str(x)` shows. -/
def node (h : Dom) (x : ℕ) : Node := h.nodeTo (h.size + 1) x

/-- The object alone, without its contents. -/
def bare (h : Dom) (x : ℕ) : Node :=
  match h.lbl x with
  | .text s => .text s
  | .tag n a => .tag n a []

/-- `x.find(...)`: the first in document order, at any depth. -/
def find? (h : Dom) (p : Node → Bool) (x : ℕ) : Option ℕ := (h.desc x).find? fun y => p (h.bare y)

/-! ## Groups -/

/-- `group.canvas_tag`, `sangfroid/layer/group.py:58-73`, `sangfroid/animation.py:130-132`. -/
def canvas (h : Dom) (k : GKind) (g : ℕ) : Res (Option ℕ) :=
  match k with
  | .animation => .ok (some g)
  | .group => match h.find? (isParam "canvas".toList) g with
    | none => .error .value
    | some p => .ok (h.find? (fun n => n.isTag && n.name = "canvas") p)

/-- The elements of `list(group.children)`, `sangfroid/layer/group.py:75-97`. -/
def children (h : Dom) (k : GKind) (g : ℕ) : Res (List ℕ) :=
  match h.canvas k g with
  | .error e => .error e
  | .ok none => .error .attr
  | .ok (some c) => mapRes (fun x => (layerOf (h.bare x)).map fun _ => x)
      ((h.kids c).reverse.filter fun x => isLayer (h.bare x))

/-- `group.append(layer)`, `sangfroid/layer/group.py:104-122`. -/
def groupAppend (k : GKind) (g x : ℕ) (h : Dom) : Dom × Res Unit :=
  match h.canvas k g with
  | .error e => (h, .error e)
  | .ok none => (h, .error .attr)
  | .ok (some c) => match (h.kids c).find? fun y => isLayer (h.bare y) with
    | none => h.append c x
    | some y => h.insertBefore y x

/-- `y.insert_after("\n")`. -/
def newlineAfter (y : ℕ) (h : Dom) : Dom × Res Unit :=
  let r := h.alloc (.text ['\n'])
  r.1.insertAfter y r.2

/-- `group.insert(i, layer)`, `sangfroid/layer/group.py:124-133`. -/
def groupInsert (k : GKind) (g : ℕ) (i : ℤ) (x : ℕ) (h : Dom) : Dom × Res Unit :=
  match h.children k g with
  | .error e => (h, .error e)
  | .ok l => match pyIndex l i with
    | .error e => (h, .error e)
    | .ok y => match h.newlineAfter y with
      | (h, .error e) => (h, .error e)
      | (h, .ok ()) => match h.insertAfter y x with
        | (h, .error e) => (h, .error e)
        | (h, .ok ()) => h.newlineAfter y

/-! ## Values -/

/-- The value object that `layer[f]` makes: its class and its element. `sangfroid/layer/layer.py:91-95,
418-436`. Other objects made for the same element share it. -/
def getItem (h : Dom) (a : ℕ) (f : Str) : Res (VCls × ℕ) :=
  match h.find? (isParam f) a with
  | none => .error .key
  | some p => match (h.kids p).filter fun x => (h.bare x).isTag with
    | [v] => match fromTag (h.node v) with
      | .error e => .error e
      | .ok c => .ok (c, v)
    | _ => .error .attr

/-- `layer[f] = v` for a value object `v` of class `c'`, `sangfroid/layer/layer.py:97-111`. -/
def setItem (a : ℕ) (f : Str) (v : VCls × ℕ) (h : Dom) : Dom × Res Unit :=
  match h.getItem a f with
  | .error e => (h, .error e)
  | .ok (c, old) => if v.1 = c then h.replaceWith old v.2 else (h, .error .type)

/-- `layer[f] = x` for anything else, `sangfroid/layer/layer.py:97-111`: a new value is made. -/
def setPlain (F : Fl) (a : ℕ) (f : Str) (x : PV) (h : Dom) : Dom × Res Unit :=
  match h.getItem a f with
  | .error e => (h, .error e)
  | .ok (c, old) => match newValue F c x with
    | .error e => (h, .error e)
    | .ok m =>
      let r := h.alloc m
      r.1.replaceWith old r.2

/-- What setting a value or its timeline does to the value's own element: a new name and attributes,
and new contents. `sangfroid/value/simple.py:55`, `sangfroid/value/color.py:96-101`,
`sangfroid/value/vector.py:73`, `sangfroid/value/transformation.py:69-78`,
`sangfroid/value/value.py:59-68,172-183,369-376`. -/
def rewrite (v : ℕ) (name : String) (attrs : Attrs) (ks : List Node) (h : Dom) : Dom :=
  let h := h.clear v
  let h := { h with lbl := Function.update h.lbl v (.tag name attrs) }
  let r := h.allocAll ks
  r.2.foldl (fun h c => (h.append v c).1) r.1

/-- What un-animating does to the value's element, `sangfroid/value/value.py:70-88`: it is emptied, and a
new one is put in its place; the value object then has that. Simplification: the code first puts an
empty element there and then replaces that by a copy of the first waypoint's value; here the latter, `m`,
is put there at once. -/
def unanimate (v : ℕ) (m : Node) (h : Dom) : (Dom × ℕ) × Res Unit :=
  let h := h.clear v
  let r := h.alloc m
  match r.1.replaceWith v r.2 with
  | (h, .error e) => ((h, v), .error e)
  | (h, .ok ()) => ((h, r.2), .ok ())

end Dom

end Sang
