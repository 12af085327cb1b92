import Verif.Model.Rcd

/-!
`estimate_total_effect` of `lingam/rcd.py`. The check whether the destination is a recorded ancestor of the source (lines
414-420) only decides about a warning.
-/
set_option autoImplicit false
namespace Verif.Rcd

/-- lingam/rcd.py:422-423, 453: the row of the source contains a NaN. -/
def rowNan (n : Nat) (B : Nat → Nat → Option ℚ) (src : Nat) : Bool := (List.range n).any (fun j => (B src j).isNone)

/-- lingam/rcd.py:430-433: the source and its estimated parents. -/
def effectPredictors (n : Nat) (B : Nat → Nat → Option ℚ) (src : Nat) : List Nat :=
  src :: (List.range n).filter (fun j => decide (0 < |(B src j).getD 0|))

/-- lingam/rcd.py:410-439 `estimate_total_effect`: NaN (`none`) if the row of the source contains one; otherwise the
coefficient of the source, where `lr ps t p` is the coefficient of `p` in the linear regression of `t` on `ps`. -/
def totalEffect (lr : List Nat → Nat → Nat → ℚ) (n : Nat) (B : Nat → Nat → Option ℚ) (src dst : Nat) : Option ℚ :=
  if rowNan n B src then none else some (lr (effectPredictors n B src) dst src)

end Verif.Rcd
