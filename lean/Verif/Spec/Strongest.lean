import Verif.Spec.Graph

/-!
# Specification: the graph of the strongest entries of a matrix
-/
set_option autoImplicit false
namespace Verif
variable {K : Type} [Field K] [LinearOrder K]

/-- The relation `E` holds for at most `m` pairs. -/
def AtMostPairs (m : Nat) (E : Nat → Nat → Prop) : Prop :=
  ∀ l : List (Nat × Nat), l.Nodup → (∀ p ∈ l, E p.1 p.2) → l.length ≤ m

/-- `G` is the graph of the entries above some threshold, with at most `n (n - 1) / 2` edges and without a cycle, and it is the
largest graph of this kind. -/
structure StrongestAcyclic (n : Nat) (M : Nat → Nat → K) (G : Nat → Nat → Prop) : Prop where
  threshold : ∃ τ : K, 0 ≤ τ ∧ ∀ a b, G a b ↔ Edge n M τ a b
  few : AtMostPairs (n * (n - 1) / 2) G
  acyclic : Acyclic G
  largest : ∀ τ : K, 0 ≤ τ → AtMostPairs (n * (n - 1) / 2) (Edge n M τ) → Acyclic (Edge n M τ) → ∀ a b, Edge n M τ a b → G a b

/-- There is only one such graph. -/
theorem StrongestAcyclic.unique {n : Nat} {M : Nat → Nat → K} {G G' : Nat → Nat → Prop} (h : StrongestAcyclic n M G)
    (h' : StrongestAcyclic n M G') (a b : Nat) : G a b ↔ G' a b := by
  have key : ∀ {G G' : Nat → Nat → Prop}, StrongestAcyclic n M G → StrongestAcyclic n M G' → G a b → G' a b := by
    intro G G' h h' hab
    obtain ⟨τ, hτ, hG⟩ := h.threshold
    have e : G = Edge n M τ := by funext a b; exact propext (hG a b)
    subst e
    exact h'.largest τ hτ h.few h.acyclic a b hab
  exact ⟨key h h', key h' h⟩

/-- The list of all variables `l` puts every cause before its effects. -/
def OrderOf (n : Nat) (G : Nat → Nat → Prop) (l : List Nat) : Prop := IsOrder n l ∧ ∀ a b, G a b → Before l a b

end Verif
