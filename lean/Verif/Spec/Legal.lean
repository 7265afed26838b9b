import Verif.Animation
import Verif.XmlText
import Verif.Lemmas.XmlText

/-!
# Everything a program can do to an open animation

`Node.XmlOk` (in `Verif.Lemmas.XmlText`) says that names, attributes and texts are such as XML allows.
-/

namespace Sang.Spec

/-- Text without the characters which XML forbids (most control characters). -/
def LegalText (s : Str) : Prop := ∀ c ∈ s, xmlChar c = true

/-- An element which XML can express. -/
def Good (F : Fl) (n : Node) : Prop := n.XmlOk F ∧ n.isTag = true

/-- Arguments which hold nothing XML forbids: the texts in them are legal, the keys of dicts could be
names of elements, and value objects wrap elements which XML can express. -/
inductive LegalArg (F : Fl) : PV → Prop
  | none : LegalArg F .none
  | float (q : ℚ) : LegalArg F (.float q)
  | int (i : ℤ) : LegalArg F (.int i)
  | bool (b : Bool) : LegalArg F (.bool b)
  | t (v : T) : LegalArg F (.t v)
  | other : LegalArg F .other
  | str {s : Str} (h : LegalText s) : LegalArg F (.str s)
  | tuple {l : List PV} (h : ∀ v ∈ l, LegalArg F v) : LegalArg F (.tuple l)
  | dict {l : List (String × PV)} (hk : ∀ p ∈ l, NameOk p.1) (h : ∀ p ∈ l, LegalArg F p.2) :
      LegalArg F (.dict l)
  | stops {l : List (ℚ × PV)} (h : ∀ p ∈ l, LegalArg F p.2) : LegalArg F (.stops l)
  | val {c : VCls} {r : Option Attrs} {n : Node} (h : Good F n) : LegalArg F (.val c r n)

/-- Waypoints which hold nothing XML forbids. -/
def LegalWp (F : Fl) (w : Waypoint) : Prop :=
  LegalText w.before ∧ LegalText w.after ∧ Good F w.val

/-- What a program can do to the value, layer, group or animation which an element stands for. -/
inductive Change where
  /-- `value.value = v` -/
  | value (c : VCls) (v : PV)
  /-- `value.is_animated = whether` -/
  | animated (ctx : Ctx) (c : VCls) (whether : Bool)
  /-- `value.timeline[t] = v` -/
  | setItem (ctx : Ctx) (c : VCls) (t : TimeArg) (v : SetArg)
  /-- `del value.timeline[t]` -/
  | delItem (ctx : Ctx) (t : TimeArg)
  /-- `value.timeline.add(ws, overwrite)` -/
  | add (ctx : Ctx) (c : VCls) (ws : List Waypoint) (overwrite : Bool)
  /-- `value.timeline += ws` -/
  | iadd (ctx : Ctx) (c : VCls) (ws : List Waypoint)
  /-- `value.timeline = v` -/
  | timeline (ctx : Ctx) (v : TimelineArg)
  /-- `layer[f] = v` -/
  | param (f : Str) (v : PV)
  /-- `layer.k = v` for a field of the layer's class -/
  | field (k : String) (f : LField) (v : PV)
  /-- `group.angle = v` and so on -/
  | shortcut (key : String) (v : PV)
  /-- `layer.desc = v` -/
  | desc (v : PV)
  /-- `layer.active = v` -/
  | active (v : PV)
  /-- `layer.exclude_from_rendering = v` -/
  | exclude (v : PV)
  /-- `layer.version = v` -/
  | version (v : PV)
  /-- `group.append(x)` -/
  | append (k : GKind) (x : LArg)
  /-- `group.insert(i, x)` -/
  | insert (k : GKind) (i : ℤ) (x : LArg)
  /-- something in the element is moved elsewhere, as when its layer is appended to another group -/
  | lose (i : ℕ)
  /-- `animation.f = v` -/
  | header (f : HField) (v : PV)
  /-- `animation.end_time = v` -/
  | endTime (v : PV)
  /-- `animation.desc = s` -/
  | animDesc (s : Str)

/-- What it does, and the outcome. -/
def Change.run (F : Fl) : Change → Node → Node × Res Unit
  | .value c v => setValue F c v
  | .animated ctx c b => setAnimated F ctx c b
  | .setItem ctx c t v => Sang.setItem F ctx c t v
  | .delItem ctx t => Sang.delItem F ctx t
  | .add ctx c ws o => addWaypoints F ctx c ws o
  | .iadd ctx c ws => iaddWaypoints F ctx c ws
  | .timeline ctx v => setTimeline F ctx v
  | .param f v => setParam F f v
  | .field k f v => setField F k f v
  | .shortcut key v => setShortcut F key v
  | .desc v => setDesc F v
  | .active v => setActive F v
  | .exclude v => setExclude F v
  | .version v => setVersion F v
  | .append k x => groupAppend k x
  | .insert k i x => groupInsert k i x
  | .lose i => fun n => (n.setKids (n.kids.eraseIdx i), .ok ())
  | .header f v => setHeader F f v
  | .endTime v => setEndTime F v
  | .animDesc s => setAnimDesc s

/-- Its arguments hold nothing XML forbids. -/
def Change.Legal (F : Fl) : Change → Prop
  | .value _ v => LegalArg F v
  | .animated _ _ _ => True
  | .setItem _ _ _ (.wp w) => LegalWp F w
  | .setItem _ _ _ (.py v) => LegalArg F v
  | .delItem _ _ => True
  | .add _ _ ws _ => ∀ w ∈ ws, LegalWp F w
  | .iadd _ _ ws => ∀ w ∈ ws, LegalWp F w
  | .timeline _ (.list ws) => ∀ w ∈ ws, LegalWp F w
  | .timeline _ (.ofValue _ m) => Good F m
  | .timeline _ _ => True
  | .param _ v => LegalArg F v
  | .field _ _ v => LegalArg F v
  | .shortcut key v => key ∈ requiredKeys.map Prod.fst ∧ LegalArg F v
  | .desc v => LegalArg F v
  | .active _ => True
  | .exclude _ => True
  | .version _ => True
  | .append _ (.layer x) => Good F x
  | .append _ .other => True
  | .insert _ _ (.layer x) => Good F x
  | .insert _ _ .other => True
  | .lose _ => True
  | .header f v => f ∈ headerFields ∧ LegalArg F v
  | .endTime v => LegalArg F v
  | .animDesc s => LegalText s

/-- The document after the element at a place in it was changed; the place is given by the numbers of
the children to go to. -/
def changeAt (g : Node → Node) : List ℕ → Node → Node
  | _, .text s => .text s
  | [], .tag n a ks => g (.tag n a ks)
  | i :: p, .tag n a ks => .tag n a (ks.modify i (changeAt g p))

/-- What a document can become: any number of changes, anywhere in it, whether they raise or not. -/
inductive Becomes (F : Fl) (d : Node) : Node → Prop
  | refl : Becomes F d d
  | step {e : Node} (h : Becomes F d e) (c : Change) (hc : c.Legal F) (p : List ℕ) :
      Becomes F d (changeAt (fun n => (c.run F n).1) p e)

end Sang.Spec
