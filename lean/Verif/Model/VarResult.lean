import Verif.Model.Bootstrap
import Verif.Model.Var

/-!
Model of the bootstrap results of `VARLiNGAM` and `VARMALiNGAM` (`/repo/lingam/var_lingam.py`, `/repo/lingam/varma_lingam.py`).
A sample is the matrix `[B_0 | B_1 | …]` with `n` rows, without NaN.
-/
set_option autoImplicit false
namespace Verif.VarResult
open Boot (Argsort Err PathTable checkParams)

/-- The stored matrix of a sample: `np.concatenate([*adjacency_matrices_], axis=1)` with the lag matrices `Bs` (for VARMALiNGAM those of
the past values followed by those of the past errors).  lingam/var_lingam.py:174, lingam/varma_lingam.py:201-204. -/
def stored (n : Nat) (Bs : List (Nat → Nat → ℚ)) : Boot.Mat := fun i j => some (Var.concat n Bs i j)

/-- `VARBootstrapResult.get_paths` (lingam/var_lingam.py:455-545) and `VARMABootstrapResult.get_paths` (lingam/varma_lingam.py:523-614) with
`p` lags: checks, expansion of each sample, and the collection and aggregation of lingam/bootstrap.py:403-432. -/
def getPaths (as : Argsort) (n p : Nat) (samples : List (List (Nat → Nat → ℚ))) (src dst srcLag dstLag : Nat) (thr : Option ℚ) :
    Option (Except Err PathTable) :=
  match checkParams none thr with
  | .error e => some (.error e)
  | .ok _ =>
    if srcLag < dstLag then some (.error .valueError)
    else if dstLag = srcLag ∧ dst = src then some (.error .valueError)
    else Boot.getPaths as (n * (p + 1)) (samples.map (fun Bs => fun i j => some (Var.expansion n p (Var.concat n Bs) i j)))
      (n * srcLag + src) (n * dstLag + dst) thr

end Verif.VarResult
