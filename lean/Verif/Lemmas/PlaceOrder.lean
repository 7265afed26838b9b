import Verif.Spec.PlaceOrder
import Verif.Lemmas.Place

/-!
# Lemmas about the order of places
-/

namespace Sang

open Spec

/-- No place comes before itself, so a list in order has nothing twice. -/
theorem earlier_irrefl (p : Place) : ¬ Earlier p p := by
  rintro (⟨r, h0, h⟩ | ⟨a, i, j, r, s, hij, h1, h2⟩)
  · exact h0 (List.append_right_eq_self.1 h.symm)
  · have := List.append_cancel_left (h1.symm.trans h2)
    injection this with h
    omega

theorem inOrder_nodup {l : List Place} (h : InOrder l) : l.Nodup := by
  refine List.Pairwise.imp (R := Earlier) ?_ h
  rintro a b h rfl
  exact earlier_irrefl _ h

mutual
theorem placesOf_order : ∀ (p : Place) (n : Node), InOrder ((placesOf p n).map Prod.fst)
  | p, .text s => by simp [placesOf, InOrder]
  | p, .tag n a ks => by
    rw [placesOf, List.map_cons, InOrder, List.pairwise_cons]
    refine ⟨fun q hq => ?_, placesIn_order p 0 ks⟩
    obtain ⟨⟨q, x⟩, hx, rfl⟩ := List.mem_map.1 hq
    obtain ⟨j, r, y, e, -⟩ := mem_placesIn.1 hx
    exact .inl ⟨_, by simp, e⟩
theorem placesIn_order : ∀ (p : Place) (i : ℕ) (ks : List Node), InOrder ((placesIn p i ks).map Prod.fst)
  | p, i, [] => by simp [placesIn, InOrder]
  | p, i, x :: r => by
    rw [placesIn, List.map_append, InOrder, List.pairwise_append]
    refine ⟨placesOf_order _ _, placesIn_order _ _ _, fun q hq q' hq' => ?_⟩
    obtain ⟨⟨q, x1⟩, hx1, rfl⟩ := List.mem_map.1 hq
    obtain ⟨⟨q', x2⟩, hx2, rfl⟩ := List.mem_map.1 hq'
    obtain ⟨t, e1, -⟩ := mem_placesOf.1 hx1
    obtain ⟨j, t', y, e2, -⟩ := mem_placesIn.1 hx2
    exact .inr ⟨p, i, i + 1 + j, t, t', by omega, by simpa using e1, e2⟩
end

theorem inOrder_sublist {l : List Place} {p : Place} {i : ℕ} {ks : List Node}
    (h : l.Sublist ((placesIn p i ks).map Prod.fst)) : InOrder l := (placesIn_order p i ks).sublist h

theorem findAllAt_inOrder {F : Fl} {d : Defaults} {a : FindArgs} {p : Place} {n : Node}
    {l : List (Place × LObj)} (h : findAllAt F d a p n = .ok l) : InOrder (l.map Prod.fst) :=
  inOrder_sublist (findAllAt_sublist h)

/-- The order on some places. -/
example : InOrder [[0], [0, 2], [0, 2, 1], [1], [3, 0]] ∧ ¬ InOrder [[0, 2], [0]] := by
  refine ⟨?_, ?_⟩
  · have := placesIn_order [] 0 [.tag "a" [] [.text [], .text [], .tag "b" [] [.text [], .tag "c" [] []]],
      .tag "d" [] [], .text [], .tag "e" [] [.tag "f" [] []]]
    simp only [placesIn, placesOf] at this
    exact this.sublist (by decide)
  · intro h
    rw [InOrder, List.pairwise_cons] at h
    rcases h.1 [0] (by simp) with ⟨r, -, e⟩ | ⟨a, i, j, r, s, hij, e1, e2⟩
    · have := congrArg List.length e; simp at this
    · cases a with
      | nil => injection e1 with e1; injection e2 with e2; omega
      | cons b a => have := congrArg List.length e2; simp at this

end Sang
