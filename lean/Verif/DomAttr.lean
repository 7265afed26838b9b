import Verif.DomLoop
import Verif.DomFind

/-!
# Assigning to the fields every layer has, in memory
-/

namespace Sang

/-- The fields of a layer that are attributes of its element and can be assigned to, `sangfroid/layer/layer.py:36-54`. -/
inductive EAttr where
  | desc
  | active
  | exclude
  | version
  deriving DecidableEq

/-- `layer.desc = v`, `layer.active = v`, `layer.exclude_from_rendering = v`, `layer.version = v`: `sangfroid/field.py:187-196,438-442`. -/
def EAttr.set (F : Fl) : EAttr → PV → Node → Node × Res Unit
  | .desc, v, n => setDesc F v n
  | .active, v, n => setActive F v n
  | .exclude, v, n => setExclude F v n
  | .version, v, n => setVersion F v n

namespace Dom

/-- The same for the element `x` in memory. Its name and attributes may change, and nothing else. -/
def assignAttr (F : Fl) (a : EAttr) (v : PV) (x : ℕ) (h : Dom) : Dom × Res Unit :=
  match a.set F v (h.bare x) with
  | (.text _, r) => (h, r)
  | (.tag n as _, r) => ({ h with lbl := Function.update h.lbl x (.tag n as) }, r)

end Dom

end Sang
