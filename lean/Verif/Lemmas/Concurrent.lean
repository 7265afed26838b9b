import Verif.Spec.Concurrent
import Mathlib.Tactic.Ring

namespace Sang

open Spec

theorem writeAt_get (f : Bytes) (off : ℕ) (p : Bytes) (j : ℕ) : (writeAt f off p)[j]? =
    if j < off then (if j < f.length then f[j]? else some 0)
    else if j < off + p.length then p[j - off]? else f[j]? := by
  have hl : ((f ++ List.replicate (off - f.length) (0 : UInt8)).take off).length = off := by
    simp only [List.length_take, List.length_append, List.length_replicate]
    omega
  rw [writeAt, List.append_assoc]
  by_cases h1 : j < off
  · rw [if_pos h1, List.getElem?_append_left (by omega), List.getElem?_take_of_lt h1]
    by_cases h2 : j < f.length
    · rw [if_pos h2, List.getElem?_append_left h2]
    · rw [if_neg h2, List.getElem?_append_right (by omega)]
      exact List.getElem?_replicate_of_lt (by omega)
  · rw [if_neg h1, List.getElem?_append_right (by omega), hl]
    by_cases h2 : j < off + p.length
    · rw [if_pos h2, List.getElem?_append_left (by omega)]
    · rw [if_neg h2, List.getElem?_append_right (by omega), List.getElem?_drop]
      congr 1
      omega

/-- Writing the next bytes at the end of those already there. -/
theorem writeAt_end (b : Bytes) {off k : ℕ} (h : off + k ≤ b.length) :
    writeAt (b.take off) off ((b.drop off).take k) = b.take (off + k) := by
  have hl : (b.take off).length = off := by rw [List.length_take]; omega
  have hd : (b.take off).drop (off + ((b.drop off).take k).length) = [] := List.drop_eq_nil_of_le (by rw [hl]; omega)
  rw [writeAt, hd, hl, Nat.sub_self, List.replicate_zero, List.append_nil, List.append_nil, List.take_take, min_self,
    List.take_add]

end Sang
