import Verif.Py

/-!
# The registry of classes: `sangfroid/registry.py`, `sangfroid/util.py`
-/

namespace Sang

/-- `d[k] = v` on a dict, kept as a list of pairs in insertion order.
`sangfroid/registry.py:22`. -/
def dictSet {κ α : Type} [DecidableEq κ] (k : κ) (v : α) : List (κ × α) → List (κ × α)
  | [] => [(k, v)]
  | (k', v') :: r => if k' = k then (k, v) :: r else (k', v') :: dictSet k v r

/-- `normalise_synfig_layer_type_name`, `sangfroid/util.py:1-12`. -/
def normaliseName (s : Str) : Str := (lower s).filter (· != '_')

/-- `Registry.handlers`, `sangfroid/registry.py:13-14`. -/
abbrev Registry (α : Type) := List (Str × α)

/-- The name a class is registered under: `name or c.__name__`, `sangfroid/registry.py:19`.
Both `None` and the empty string count as not given. -/
def registeredName (name : Option Str) (className : Str) : Str :=
  match name with
  | none => className
  | some [] => className
  | some (c :: s) => c :: s

/-- The decorator, `sangfroid/registry.py:17-24`. -/
def Registry.register {α : Type} (r : Registry α) (name : Option Str) (className : Str) (c : α) :
    Registry α :=
  dictSet (normaliseName (registeredName name className)) c r

/-- `Registry.from_name`, `sangfroid/registry.py:26-47`. -/
def Registry.fromName {α : Type} (r : Registry α) (name : Str) : Res α :=
  match r.lookup (normaliseName name) with
  | none => .error .key
  | some c => .ok c

end Sang
