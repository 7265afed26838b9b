import Verif.NonFinite

/-!
# What C166 speaks of: the times of `T.lean` among those with numbers that aren't finite
-/

namespace Sang.Spec

/-- Arithmetic in which nothing is too large. -/
def Unlimited (G : XFl) : Prop := ∀ q, G.big q = false

/-- A time whose numbers are finite. -/
def timeX (t : T) : TX := ⟨.fin t.frames, t.fps.map .fin⟩

/-- What `T` is given. -/
def argX (G : XFl) : TArg → TXArg
  | .str s => .str s
  | .num q => .num (.fin (G.rnd q))
  | .t v => .t (timeX v)
  | .other => .other

/-- Ordinary characters. -/
def Ascii (s : Str) : Prop := ∀ c ∈ s, c.toNat < 128

end Sang.Spec
