import Verif.Model.Hsic
import Verif.Model.ErrorTests
import Verif.Model.Mlhsicr

/-!
Model of `get_error_independence_p_values` of `lingam/base.py` with the independence test of `lingam/hsic.py`, over the real numbers.
`none` is NaN.
-/
set_option autoImplicit false
namespace Verif.ErrorData
open Finset
open Utils (pairs)
open Mlhsicr (col)

variable {N : Nat}

/-- `E[:, i]` for `E = X - np.dot(B, X.T).T`.  lingam/base.py:112. -/
noncomputable def errorCol (n : Nat) (B : Nat → Nat → ℝ) (X : Nat → Fin N → ℝ) (i : Nat) : Fin N → ℝ :=
  fun r => X i r - ∑ j ∈ range n, B i j * X j r

/-- One call of `hsic_test_gamma`.  lingam/base.py:115-117. -/
noncomputable def testPair (sf : ℝ → ℝ → ℝ → ℝ) (n : Nat) (B : Nat → Nat → ℝ) (X : Nat → Fin N → ℝ) (i j : Nat) :
    Except Hsic.Err (Option ℝ × Option ℝ) := Hsic.test sf (col (errorCol n B X i)) (col (errorCol n B X j))

/-- lingam/base.py:116: the second of the two results. -/
def second (r : Except Hsic.Err (Option ℝ × Option ℝ)) : Option ℝ :=
  match r with
  | .ok (_, p) => p
  | .error _ => none

/-- lingam/base.py:115: does the call raise? -/
def raises (r : Except Hsic.Err (Option ℝ × Option ℝ)) : Bool :=
  match r with
  | .ok _ => false
  | .error _ => true

/-- `get_error_independence_p_values`; there is only one kind of exception.  lingam/base.py:93-121. -/
noncomputable def table (sf : ℝ → ℝ → ℝ → ℝ) (n : Nat) (B : Nat → Nat → ℝ) (X : Nat → Fin N → ℝ) :
    Except Hsic.Err (Nat → Nat → Option ℝ) :=
  if (pairs n).any (fun ij => raises (testPair sf n B X ij.1 ij.2)) then .error .zeroDivision
  else .ok (ErrorTests.fill n (some 0) (fun i j => second (testPair sf n B X i j)))

end Verif.ErrorData
