import Verif.Compare

/-!
# Groups: `sangfroid/layer/group.py`

Two kinds of object hold layers: groups, and the animation itself (`sangfroid/animation.py`).
-/

namespace Sang

/-- A `Group` proper, or an `Animation`. -/
inductive GKind where
  | group | animation
  deriving DecidableEq

/-- `group.canvas_tag`, `sangfroid/layer/group.py:58-73`, `sangfroid/animation.py:130-132`. It can be
`None`. -/
def canvasTag (k : GKind) (n : Node) : Res (Option Node) :=
  match k with
  | .animation => .ok (some n)
  | .group => match findParam "canvas".toList n with
    | none => .error .value
    | some p => .ok (p.find "canvas")

/-- The contents of the canvas; `None.contents` raises `AttributeError`. -/
def canvasKids (k : GKind) (n : Node) : Res (List Node) :=
  match canvasTag k n with
  | .error e => .error e
  | .ok none => .error .attr
  | .ok (some c) => .ok c.kids

/-- Whether something in a canvas is a `<layer>`, `sangfroid/layer/group.py:82-85`. -/
def isLayer (n : Node) : Bool := n.isTag && n.name = "layer"

/-- A layer object: its class and its element. -/
abbrev LObj := LClass × Node

/-- `Layer.from_tag(tag)` as an object. -/
def asLayer (n : Node) : Res LObj :=
  match layerOf n with
  | .error e => .error e
  | .ok c => .ok (c, n)

/-- `list(group.children)`, `sangfroid/layer/group.py:75-97`. -/
def children (k : GKind) (n : Node) : Res (List LObj) :=
  match canvasKids k n with
  | .error e => .error e
  | .ok ks => mapRes asLayer (ks.reverse.filter isLayer)

/-- `list(layer.children)` for any layer: nothing, unless it is a group.
`sangfroid/layer/layer.py:284-293`. -/
def layerChildren (x : LObj) : Res (List LObj) :=
  if x.1.isGroup then children .group x.2 else .ok []

/-- A child followed by its own children, `sangfroid/layer/group.py:87-91`. -/
def withChildren (n : Node) : Res (List LObj) :=
  match asLayer n with
  | .error e => .error e
  | .ok x => match layerChildren x with
    | .error e => .error e
    | .ok l => .ok (x :: l)

/-- `list(group.descendants)`, `sangfroid/layer/group.py:75-91,98-102`. -/
def descendants (k : GKind) (n : Node) : Res (List LObj) :=
  match canvasKids k n with
  | .error e => .error e
  | .ok ks => match mapRes withChildren (ks.reverse.filter isLayer) with
    | .error e => .error e
    | .ok l => .ok l.flatten

/-- `group[i]` for a whole number, `sangfroid/layer/group.py:135-137`. -/
def groupIndex (k : GKind) (i : ℤ) (n : Node) : Res LObj :=
  match children k n with
  | .error e => .error e
  | .ok l => pyIndex l i

/-- Changing the contents of the canvas in place. -/
def updCanvas (k : GKind) (g : List Node → List Node) (n : Node) : Node :=
  match k with
  | .animation => n.setKids (g n.kids)
  | .group =>
    updFirst (isParam "canvas".toList)
      (updFirst (fun x => x.name = "canvas") fun c => c.setKids (g c.kids)) n

/-- The new layer before the first that is there, or at the end. `sangfroid/layer/group.py:108-122`. -/
def putFirst (x : Node) (ks : List Node) : List Node :=
  if ks.any isLayer then ks.takeWhile (fun y => !isLayer y) ++ x :: ks.dropWhile (fun y => !isLayer y)
  else ks ++ [x]

/-- What may be given to `append` and `insert`: a layer (its element), or something else. -/
inductive LArg where
  | layer (n : Node)
  | other

/-- `group.append(layer)`, `sangfroid/layer/group.py:104-122`, for a layer that isn't in a document
(see `Verif.Dom` for one that is). -/
def groupAppend (k : GKind) (x : LArg) (n : Node) : Node × Res Unit :=
  match x with
  | .other => (n, .error .type)
  | .layer x => match canvasKids k n with
    | .error e => (n, .error e)
    | .ok _ => (updCanvas k (putFirst x) n, .ok ())

/-- `layer.append(x)` for a layer that isn't a group, `sangfroid/layer/layer.py:398-413`. -/
def layerAppend (_x : LArg) (n : Node) : Node × Res Unit := (n, .error .notImpl)

/-- What comes to stand after the `j`th layer. -/
def putAfter (xs : List Node) : ℕ → List Node → List Node
  | _, [] => []
  | 0, y :: r => if isLayer y then y :: (xs ++ r) else y :: putAfter xs 0 r
  | j + 1, y :: r => if isLayer y then y :: putAfter xs j r else y :: putAfter xs (j + 1) r

/-- `group.insert(i, layer)`, `sangfroid/layer/group.py:124-133`, for a layer that isn't in a
document. The `i`th child is the `i`th layer from the end of the file. -/
def groupInsert (k : GKind) (i : ℤ) (x : LArg) (n : Node) : Node × Res Unit :=
  match x with
  | .other => (n, .error .type)
  | .layer x => match children k n with
    | .error e => (n, .error e)
    | .ok l => match pyIndex l i with
      | .error e => (n, .error e)
      | .ok _ =>
        let j := (if i < 0 then i + l.length else i).toNat
        (updCanvas k (putAfter [.text ['\n'], x, .text ['\n']] (l.length - 1 - j)) n, .ok ())

/-! ## Shortcuts -/

/-- `group.angle` and so on, `sangfroid/field.py:318-321`, `sangfroid/layer/group.py:6`. -/
def getShortcut (key : String) (n : Node) : Res (VCls × Node) :=
  match getField "transformation" (.param .composite .none) n with
  | .error e => .error e
  | .ok (_, m) => compositeGet m key

/-- `group.angle = v` and so on, `sangfroid/field.py:323-327`. -/
def setShortcut (F : Fl) (key : String) (v : PV) (n : Node) : Node × Res Unit :=
  setField F "transformation" (.param .composite .none) (.dict [(key, v)]) n

end Sang
