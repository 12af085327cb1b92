import Verif.Spec.Lasso

/-! Vocabulary for columns in another order.  Nothing here refers to the model of the code. -/
set_option autoImplicit false
namespace Verif

variable {N : Nat}

/-- `σ` rearranges the numbers below `n`. -/
def Rearranges (n : Nat) (σ : Nat → Nat) : Prop := ((List.range n).map σ).Perm (List.range n)

/-- The columns `cols'` are the columns `cols` in the order `σ`: column `k` of the new list is column `σ k` of the old one. -/
structure Shuffled (σ : Nat → Nat) (cols cols' : List (Fin N → ℝ)) : Prop where
  length : cols'.length = cols.length
  rearranges : Rearranges cols.length σ
  same : ∀ k, k < cols.length → cols'.getD k 0 = cols.getD (σ k) 0

/-- A routine that returns a list of coefficient vectors treats the columns alike: for these columns in any order it returns the same
vectors in that order. -/
def TreatsAlike (path : List (Fin N → ℝ) → (Fin N → ℝ) → List (Nat → ℝ)) (cols : List (Fin N → ℝ)) (y : Fin N → ℝ) : Prop :=
  ∀ σ cols', Shuffled σ cols cols' →
    List.Forall₂ (fun b b' : Nat → ℝ => ∀ k, k < cols.length → b' k = b (σ k)) (path cols y) (path cols' y)

/-- The columns multiplied by weights. -/
def multiplied (d : Nat → ℝ) (cols : List (Fin N → ℝ)) : List (Fin N → ℝ) :=
  (List.range cols.length).map (fun k r => cols.getD k 0 r * d k)

/-- The columns with their rows in the order `σ`. -/
def inRows (σ : Equiv.Perm (Fin N)) (cols : List (Fin N → ℝ)) : List (Fin N → ℝ) := cols.map (fun x r => x (σ r))

/-- A routine that returns a list of coefficient vectors ignores the order of the rows. -/
def IgnoresRows (path : List (Fin N → ℝ) → (Fin N → ℝ) → List (Nat → ℝ)) (cols : List (Fin N → ℝ)) (y : Fin N → ℝ) : Prop :=
  ∀ σ : Equiv.Perm (Fin N), List.Forall₂ (fun b b' : Nat → ℝ => ∀ k, k < cols.length → b' k = b k) (path cols y) (path (inRows σ cols) fun r => y (σ r))

end Verif
