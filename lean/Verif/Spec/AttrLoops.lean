import Verif.DomAttr

/-!
# What assigning to a field of several layers comes to
-/

namespace Sang.Spec

/-- Each element of `l` is what it is after the assignment to it alone, and everything else in memory is as it was. -/
def Assigned (F : Fl) (a : EAttr) (v : PV) (l : List ℕ) (h h' : Dom) : Prop :=
  h'.size = h.size ∧ h'.kids = h.kids ∧ h'.parent = h.parent ∧ (∀ x ∈ l, h'.bare x = (a.set F v (h.bare x)).1) ∧
    ∀ z, z ∉ l → h'.lbl z = h.lbl z

end Sang.Spec
