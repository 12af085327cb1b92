import Verif.Spec.Graph

/-! Specification vocabulary for LiNA and MDLiNA.  Nothing here refers to the model of the code. -/
set_option autoImplicit false
namespace Verif.Spec

variable {K : Type} [LinearOrder K]

/-- `steps` is a greedy matching of the rows and columns of a `q × q` table `B`, starting with the rows `R` and columns `C` already
taken: each step takes a largest entry among the free rows and columns. -/
def Greedy (q : Nat) (B : Nat → Nat → K) : List Nat → List Nat → List (Nat × Nat) → Prop
  | _, _, [] => True
  | R, C, (r, c) :: s =>
    r < q ∧ c < q ∧ r ∉ R ∧ c ∉ C ∧ (∀ i j, i < q → j < q → i ∉ R → j ∉ C → B i j ≤ B r c) ∧ Greedy q B (r :: R) (c :: C) s

/-- A complete greedy matching: every row and every column is used. -/
def GreedyMatching (q : Nat) (B : Nat → Nat → K) (steps : List (Nat × Nat)) : Prop := steps.length = q ∧ Greedy q B [] [] steps

/-- The objective values are finite and go down in every round. -/
def Decreasing {K : Type} [LinearOrder K] (L : Nat → Option K) : Prop :=
  ∀ t, 1 ≤ t → ∃ a b, L t = some a ∧ L (t + 1) = some b ∧ b ≤ a

/-- The stopping rule of the alternating estimation for finite objective values (the value "before round 1" is 0): the last step
changed little, or the value is close to the best so far (from round 30 on) or to the best of some recent rounds (from 50 on). -/
def StopRule {K : Type} [Field K] [LinearOrder K] (ℓ : Nat → K) (t : Nat) : Prop :=
  |ℓ t - (if t = 1 then 0 else ℓ (t - 1))| < 1 / 10 ∨ (30 ≤ t ∧ ∀ s, 1 ≤ s → s ≤ t → ℓ t < ℓ s + 1 / 10) ∨
    (50 ≤ t ∧ ∀ s, t - 20 ≤ s → s ≤ t - 2 → ℓ t < ℓ s + 1 / 10)

end Verif.Spec
