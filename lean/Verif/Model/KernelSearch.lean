import Verif.Model.KernelMi
import Verif.Model.Pairwise

/-!
Model over the reals, without oracles, of the search for the causal order by `DirectLiNGAM` with `measure='kernel'`
(`/repo/lingam/direct_lingam.py`).  A column that consists of NaN is `none`.  Exact arithmetic.
-/
set_option autoImplicit false
namespace Verif.KernelSearch
open Pairwise (Col mean var residual sumNan pick removeEffect)

variable {N : Nat}

/-- The exceptions.  lingam/direct_lingam.py:82, 127-131, 279-280, 308. -/
inductive Err
  /-- lingam/direct_lingam.py:127-131: contradictory prior knowledge. -/
  | inconsistent
  /-- lingam/direct_lingam.py:308: `np.argmin([])`. -/
  | noCandidate
  /-- lingam/direct_lingam.py:279-280: `np.linalg.svd` of a matrix with NaN raises `LinAlgError`. -/
  | svd
deriving DecidableEq

/-- `scale(X_)`, one column; a standard deviation of zero is replaced by one.  lingam/direct_lingam.py:87-88. -/
noncomputable def scale (x : Fin N → ℝ) : Fin N → ℝ := fun r => (x r - mean x) / (if var x = 0 then 1 else √(var x))

/-- `_mutual_information` with the parameters for the number of rows; `none` is the exception of `svd`.
lingam/direct_lingam.py:263-282, 290-293. -/
noncomputable def mi (x y : Col N) : Option ℝ :=
  match x, y with
  | some x, some y => some (KernelMi.mutualInformation (KernelMi.params N).1 (KernelMi.params N).2 x y)
  | _, _ => none

/-- `Tkernel` for candidate `j`; `none` is the exception.  lingam/direct_lingam.py:296-306. -/
noncomputable def tkernel (X : Nat → Col N) (U Uc Vj : List Nat) (j : Nat) : Option ℝ :=
  sumNan ((U.filter (fun i => decide (i ≠ j))).map (fun i => mi (X j) (if j ∈ Vj ∧ i ∈ Uc then X i else residual (X i) (X j))))

/-- `_search_causal_order_kernel`; the first least value is the first largest of the negatives.  lingam/direct_lingam.py:284-308. -/
noncomputable def search (cfg : Direct.Config) (po : List (Nat × Nat)) (X : Nat → Col N) (U : List Nat) : Except Err Nat :=
  let (Uc, Vj) := Direct.searchCandidate cfg po U
  match Uc with
  | [c] => .ok c
  | Uc =>
    if Uc.all (fun j => (tkernel X U Uc Vj j).isSome) then
      match pick (fun j => (tkernel X U Uc Vj j).map (fun t => -1 * t)) Uc with
      | some m => .ok m
      | none => .error .noCandidate
    else .error .svd

/-- The loop of `fit`.  lingam/direct_lingam.py:90-113. -/
noncomputable def loop (cfg : Direct.Config) : Nat → (Nat → Col N) → List Nat → List Nat → List (Nat × Nat) → Except Err (List Nat)
  | 0, _, K, _, _ => .ok K
  | r + 1, X, K, U, po =>
    match search cfg po X U with
    | .error e => .error e
    | .ok m =>
      loop cfg r (removeEffect X U m) (K ++ [m]) (U.filter (fun i => decide (i ≠ m)))
        (if cfg.pk.isSome && !cfg.soft then po.filter (fun p => decide (p.1 ≠ m)) else po)

/-- The causal order found by `fit` with `measure='kernel'`.  lingam/direct_lingam.py:73-115. -/
noncomputable def fitOrder (cfg : Direct.Config) (n : Nat) (X : Nat → Fin N → ℝ) : Except Err (List Nat) :=
  match cfg.pk with
  | none => loop cfg n (fun j => some (scale (X j))) [] (List.range n) []
  | some pk =>
    if cfg.soft then loop cfg n (fun j => some (scale (X j))) [] (List.range n) []
    else match Direct.extractPartialOrders n pk with
      | .error _ => .error .inconsistent
      | .ok po => loop cfg n (fun j => some (scale (X j))) [] (List.range n) po

end Verif.KernelSearch
