import Verif.Model.DirectLingam
import Mathlib.Analysis.SpecialFunctions.Log.Basic
import Mathlib.Analysis.SpecialFunctions.Sqrt
import Mathlib.Analysis.SpecialFunctions.Trigonometric.Basic
import Mathlib.Algebra.BigOperators.Fin

/-!
Model over the reals, without oracles, of the search for the causal order by `DirectLiNGAM` with the default measure
(`/repo/lingam/direct_lingam.py`).  A column that consists of NaN is `none`; divisions by a zero variance give such
columns.  Exact arithmetic.
-/
set_option autoImplicit false
namespace Verif.Pairwise

variable {N : Nat}

/-- A column of the working data, or NaN.  lingam/direct_lingam.py:86, 100. -/
abbrev Col (N : Nat) := Option (Fin N → ℝ)

/-- `np.mean`, lingam/direct_lingam.py:159, 223-224. -/
noncomputable def mean (x : Fin N → ℝ) : ℝ := (∑ r, x r) / N

/-- `np.cov(x, y, bias=True)[0, 1]`, lingam/direct_lingam.py:151. -/
noncomputable def cov (x y : Fin N → ℝ) : ℝ := mean (fun r => (x r - mean x) * (y r - mean y))

/-- `np.var`, lingam/direct_lingam.py:151. -/
noncomputable def var (x : Fin N → ℝ) : ℝ := mean (fun r => (x r - mean x) ^ 2)

/-- `_residual`, lingam/direct_lingam.py:149-151. -/
noncomputable def residual (xi xj : Col N) : Col N :=
  match xi, xj with
  | some x, some y => if var y = 0 then none else some (fun r => x r - cov x y / var y * y r)
  | _, _ => none

/-- `_entropy`, lingam/direct_lingam.py:153-159. -/
noncomputable def entropy (u : Fin N → ℝ) : ℝ :=
  (1 + Real.log (2 * Real.pi)) / 2 - 79047 / 1000 * (mean (fun r => Real.log (Real.cosh (u r))) - 37457 / 100000) ^ 2 -
    74129 / 10000 * (mean (fun r => u r * Real.exp (-(u r) ^ 2 / 2))) ^ 2

/-- `(x - np.mean(x)) / np.std(x)`, lingam/direct_lingam.py:223-224. -/
noncomputable def standardize (x : Col N) : Col N :=
  match x with
  | some x => if var x = 0 then none else some (fun r => (x r - mean x) / √(var x))
  | none => none

/-- `self._entropy(r / np.std(r))`, lingam/direct_lingam.py:163-164. -/
noncomputable def scaledEntropy (x : Col N) : Option ℝ :=
  match x with
  | some x => if var x = 0 then none else some (entropy (fun r => x r / √(var x)))
  | none => none

/-- `_diff_mutual_info` on standardised columns, lingam/direct_lingam.py:161-165. -/
noncomputable def diffMutualInfo (xi xj ri rj : Col N) : Option ℝ :=
  match xi.map entropy, xj.map entropy, scaledEntropy ri, scaledEntropy rj with
  | some hi, some hj, some gi, some gj => some ((hj + gi) - (hi + gj))
  | _, _, _, _ => none

/-- The difference for one pair, lingam/direct_lingam.py:223-235. -/
noncomputable def pairDiff (X : Nat → Col N) (Uc Vj : List Nat) (i j : Nat) : Option ℝ :=
  let xi := standardize (X i)
  let xj := standardize (X j)
  diffMutualInfo xi xj (if i ∈ Vj ∧ j ∈ Uc then xi else residual xi xj) (if j ∈ Vj ∧ i ∈ Uc then xj else residual xj xi)

/-- Sum in which one NaN makes the result NaN.  lingam/direct_lingam.py:220, 235. -/
def sumNan : List (Option ℝ) → Option ℝ
  | [] => some 0
  | none :: _ => none
  | some a :: l => (sumNan l).map (a + ·)

/-- `M` for candidate `i`, lingam/direct_lingam.py:219-235. -/
noncomputable def statistic (X : Nat → Col N) (U Uc Vj : List Nat) (i : Nat) : Option ℝ :=
  sumNan ((U.filter (fun j => decide (i ≠ j))).map (fun j => (pairDiff X Uc Vj i j).map (fun d => (min 0 d) ^ 2)))

/-- Scan of `np.argmax`: the first NaN, or else the first largest value.  lingam/direct_lingam.py:237. -/
noncomputable def pickGo (f : Nat → Option ℝ) : Nat → List Nat → Nat
  | b, [] => b
  | b, c :: cs =>
    match f b, f c with
    | none, _ => b
    | some _, none => c
    | some v, some w => if v < w then pickGo f c cs else pickGo f b cs

/-- `Uc[np.argmax(M_list)]`, lingam/direct_lingam.py:237; `none` is the exception for no candidates. -/
noncomputable def pick (f : Nat → Option ℝ) : List Nat → Option Nat
  | [] => none
  | b :: cs => some (pickGo f b cs)

/-- `_search_causal_order`, lingam/direct_lingam.py:212-237. -/
noncomputable def searchOrder (cfg : Direct.Config) (po : List (Nat × Nat)) (X : Nat → Col N) (U : List Nat) : Option Nat :=
  let (Uc, Vj) := Direct.searchCandidate cfg po U
  match Uc with
  | [c] => some c
  | Uc => pick (fun i => (statistic X U Uc Vj i).map (fun m => -1 * m)) Uc

/-- Removing the effect of `m` from the other remaining columns, lingam/direct_lingam.py:98-100. -/
noncomputable def removeEffect (X : Nat → Col N) (U : List Nat) (m : Nat) : Nat → Col N :=
  fun i => if i ∈ U ∧ i ≠ m then residual (X i) (X m) else X i

/-- The loop of `fit`, lingam/direct_lingam.py:90-113. -/
noncomputable def orderLoop (cfg : Direct.Config) : Nat → (Nat → Col N) → List Nat → List Nat → List (Nat × Nat) →
    Except Direct.Err (List Nat)
  | 0, _, K, _, _ => .ok K
  | r + 1, X, K, U, po =>
    match searchOrder cfg po X U with
    | none => .error .emptyArgmax
    | some m =>
      orderLoop cfg r (removeEffect X U m) (K ++ [m]) (U.filter (fun i => decide (i ≠ m)))
        (if cfg.pk.isSome && !cfg.soft then po.filter (fun p => decide (p.1 ≠ m)) else po)

/-- The causal order found by `fit` for a float array with `n` columns.  lingam/direct_lingam.py:73-115. -/
noncomputable def fitOrder (cfg : Direct.Config) (n : Nat) (X : Nat → Fin N → ℝ) : Except Direct.Err (List Nat) :=
  match cfg.pk with
  | none => orderLoop cfg n (fun j => some (X j)) [] (List.range n) []
  | some pk =>
    if cfg.soft then orderLoop cfg n (fun j => some (X j)) [] (List.range n) []
    else match Direct.extractPartialOrders n pk with
      | .error e => .error e
      | .ok po => orderLoop cfg n (fun j => some (X j)) [] (List.range n) po

/-- The order and the matrix; the selection by the adaptive Lasso and the least squares coefficients are parameters.
lingam/direct_lingam.py:61-116, lingam/base.py:123-159, lingam/utils/__init__.py:750-788. -/
noncomputable def fit (cfg : Direct.Config) (select : List Nat → Nat → Nat → Bool) (ols : List Nat → Nat → Nat → ℝ) (n : Nat)
    (X : Nat → Fin N → ℝ) : Except Direct.Err (List Nat × (Nat → Nat → ℝ)) :=
  match fitOrder cfg n X with
  | .error e => .error e
  | .ok order => .ok (order, Direct.estimateAdj cfg.pk (fun ps t p =>
      let S := ps.filter (select ps t)
      if p ∈ S then ols S t p else 0) order)

end Verif.Pairwise
