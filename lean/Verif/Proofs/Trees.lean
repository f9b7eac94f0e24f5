import Verif.Spec.OneStep

/-! Enumeration of the rooted trees of bounded order. -/

namespace Spec

open RTree

/-- All forests with at most `n` vertices (fuel-style enumeration). -/
def forestsUpTo : ℕ → List (List RTree)
  | 0 => [[]]
  | n + 1 => [] :: (forestsUpTo n).flatMap (fun ch => (forestsUpTo n).map (fun rest => node ch :: rest))

theorem mem_forestsUpTo (n : ℕ) : ∀ l : List RTree, orders l ≤ n → l ∈ forestsUpTo n := by
  induction n with
  | zero =>
    intro l hl
    cases l with
    | nil => simp [forestsUpTo]
    | cons τ rest => cases τ; simp [orders, order] at hl
  | succ n ih =>
    intro l hl
    cases l with
    | nil => simp [forestsUpTo]
    | cons τ rest =>
      cases τ with
      | node ch =>
        simp only [orders, order] at hl
        have h1 : ch ∈ forestsUpTo n := ih ch (by omega)
        have h2 : rest ∈ forestsUpTo n := ih rest (by omega)
        simp only [forestsUpTo, List.mem_cons, List.mem_flatMap, List.mem_map]
        exact Or.inr ⟨ch, h1, rest, h2, rfl⟩

/-- A checkable form of "for all trees of order at most `p`". -/
theorem forall_trees (p : ℕ) (P : RTree → Prop)
    (h : ∀ ch ∈ (forestsUpTo p).filter (fun ch => orders ch ≤ p), P (node ch)) :
    ∀ τ : RTree, τ.order ≤ p + 1 → P τ := by
  rintro ⟨ch⟩ hτ
  simp only [order] at hτ
  have : orders ch ≤ p := by omega
  exact h ch (by simp [mem_forestsUpTo p ch this, this])

end Spec
