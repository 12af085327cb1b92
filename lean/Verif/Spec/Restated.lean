import Mathlib.Algebra.Field.Basic

/-! Vocabulary: the same variables written down in another order and in other units.  Nothing here refers to the model of the code. -/
set_option autoImplicit false
namespace Verif

variable {K : Type} [Field K]

/-- Variable `i` of the new description is variable `π i` of the old one, multiplied by `c i` and shifted by `o i`. -/
def RestatedValues (n : Nat) (π : Nat → Nat) (c o : Nat → K) (e e' : Nat → K) : Prop := ∀ i, i < n → e' i = c i * e (π i) + o i

/-- The coefficients (target, source) of the new description. -/
def RestatedMatrix (n : Nat) (π : Nat → Nat) (c : Nat → K) (B B' : Nat → Nat → K) : Prop :=
  ∀ i, i < n → ∀ j, j < n → B' i j = B (π i) (π j) * (c i / c j)

end Verif
