import Verif.DiskFull

/-! # What C163 speaks of -/

namespace Sang.Spec

/-- The file which `animation.save(name)` would write: the name given, or the animation's own. -/
def savedTo {D : Type} (a : Anim D) (name : Option Str) : Option Str := name.or a.filename

/-- What `animation.save(name)` would leave in the file, if there were room for any. -/
def wouldHold {D : Type} (C : Codec D) (fs : Disk) (a : Anim D) (name : Option Str) (p : Str) : Option Bytes :=
  (a.save C fs name).disk p

end Sang.Spec
