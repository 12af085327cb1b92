import Verif.Model.AdaptiveLasso

/-!
# `estimate_total_effect` on real data

lingam/base.py:51-91.
-/
set_option autoImplicit false
namespace Verif.Pairwise

variable {N : Nat}

/-- The source and its estimated parents.  lingam/base.py:82-85. -/
noncomputable def effectPredictors (n : Nat) (B : Nat → Nat → ℝ) (src : Nat) : List Nat :=
  src :: (List.range n).filter (fun j => decide (0 < |B src j|))

/-- `estimate_total_effect`: the first coefficient of the regression without pruning.  The warning about the order
(lingam/base.py:72-80) does not change the result.  lingam/base.py:51-91. -/
noncomputable def totalEffect (lin : Lin N) (n : Nat) (X : Nat → Fin N → ℝ) (B : Nat → Nat → ℝ) (src dst : Nat) : ℝ :=
  lin ((effectPredictors n B src).map X) (X dst) 0

end Verif.Pairwise
