import Mathlib.Analysis.SpecialFunctions.Exp
import Mathlib.Analysis.SpecialFunctions.Sqrt
import Mathlib.Data.Multiset.Sort
import Mathlib.Data.Real.Basic

/-!
Model of `lingam/hsic.py`, over the real numbers.  The data are `X r k` (row, column).  `none` is NaN.  The survival
function of the gamma distribution and the bandwidth rules of `statsmodels` are oracles.
-/
set_option autoImplicit false
namespace Verif.Hsic
open Finset

/-- lingam/hsic.py:101-126: data with `n` rows and `d` columns. -/
abbrev Dat (n d : Nat) := Fin n → Fin d → ℝ

/-- One entry of `G + G.T - 2 * np.dot(X, X.T)`.  lingam/hsic.py:39-40, 49-50. -/
noncomputable def dist {n d : Nat} (X : Dat n d) (i j : Fin n) : ℝ :=
  (∑ k, X i k * X i k) + (∑ k, X j k * X j k) - 2 * ∑ k, X i k * X j k

/-- The first 100 rows, lingam/hsic.py:32-37. -/
def firstRows {n d : Nat} (X : Dat n d) : Dat (min n 100) d := fun i => X (Fin.castLE (Nat.min_le_left n 100) i)

/-- The positive entries above the diagonal (`dists - np.tril(dists)`, then `dists > 0`).  lingam/hsic.py:41-44. -/
noncomputable def positiveDists {n d : Nat} (X : Dat n d) : Multiset ℝ :=
  ((univ : Finset (Fin n × Fin n)).filter (fun p => p.1 < p.2 ∧ 0 < dist X p.1 p.2)).val.map (fun p => dist X p.1 p.2)

/-- `np.median`; NaN for the empty array.  lingam/hsic.py:44. -/
noncomputable def median (s : Multiset ℝ) : Option ℝ :=
  let l := s.sort (· ≤ ·)
  if l.length = 0 then none
  else some ((l.getD ((l.length - 1) / 2) 0 + l.getD (l.length / 2) 0) / 2)

/-- `get_kernel_width`, lingam/hsic.py:16-44. -/
noncomputable def kernelWidth {n d : Nat} (X : Dat n d) : Option ℝ :=
  (median (positiveDists (firstRows X))).map (fun m => Real.sqrt (1 / 2 * m))

/-- `_rbf_dot`, lingam/hsic.py:47-51. -/
noncomputable def rbf {n d : Nat} (X : Dat n d) (w : ℝ) (i j : Fin n) : ℝ := Real.exp (-(dist X i j) / 2 / w ^ 2)

/-- The second result of `get_gram_matrix`: the centred matrix.  lingam/hsic.py:54-78. -/
noncomputable def centred {n : Nat} (K : Fin n → Fin n → ℝ) (i j : Fin n) : ℝ :=
  K i j - ((∑ a, K a j) + ∑ b, K i b) / n + (∑ a, ∑ b, K a b) / n ^ 2

/-- `hsic_teststat`, lingam/hsic.py:81-98. -/
noncomputable def testStat {n : Nat} (Kc Lc : Fin n → Fin n → ℝ) : ℝ := 1 / n * ∑ i, ∑ j, Kc j i * Lc i j

/-- The variance under the null hypothesis, lingam/hsic.py:147-151.  (Only used for `n > 3`.) -/
noncomputable def nullVar {n : Nat} (Kc Lc : Fin n → Fin n → ℝ) : ℝ :=
  72 * ((n : ℝ) - 4) * ((n : ℝ) - 5) / n / ((n : ℝ) - 1) / ((n : ℝ) - 2) / ((n : ℝ) - 3) *
    (1 / n / ((n : ℝ) - 1) *
      ((∑ i, ∑ j, (1 / 6 * Kc i j * Lc i j) ^ 2) - ∑ i, (1 / 6 * Kc i i * Lc i i) ^ 2))

/-- `1 / n / (n - 1) * K.sum()` after the diagonal was set to 0.  lingam/hsic.py:153-156. -/
noncomputable def offMean {n : Nat} (K : Fin n → Fin n → ℝ) : ℝ :=
  1 / n / ((n : ℝ) - 1) * ∑ i, ∑ j, if i = j then 0 else K i j

/-- The mean under the null hypothesis, lingam/hsic.py:158. -/
noncomputable def nullMean {n : Nat} (K L : Fin n → Fin n → ℝ) : ℝ :=
  1 / n * (1 + offMean K * offMean L - offMean K - offMean L)

/-- lingam/hsic.py:149-151: exceptions (a float divided by the integer 0). -/
inductive Err | zeroDivision
deriving DecidableEq

/-- The statistic and the p-value for given bandwidths.  `sf x shape scale` is `gamma.sf`; it is NaN for a scale of 0.
lingam/hsic.py:139-165. -/
noncomputable def testWith {n d e : Nat} (sf : ℝ → ℝ → ℝ → ℝ) (X : Dat n d) (Y : Dat n e) (wx wy : Option ℝ) :
    Except Err (Option ℝ × Option ℝ) :=
  if n ≤ 3 then .error .zeroDivision
  else match wx, wy with
    | some wx, some wy =>
      let K := rbf X wx
      let L := rbf Y wy
      let v := nullVar (centred K) (centred L)
      let m := nullMean K L
      let s := testStat (centred K) (centred L)
      .ok (some s, if v = 0 ∨ m = 0 then none else some (sf s (m ^ 2 / v) (v * n / m)))
    | _, _ => .ok (none, none)

/-- `hsic_test_gamma` with the default bandwidth, lingam/hsic.py:101-165. -/
noncomputable def test {n d e : Nat} (sf : ℝ → ℝ → ℝ → ℝ) (X : Dat n d) (Y : Dat n e) : Except Err (Option ℝ × Option ℝ) :=
  testWith sf X Y (kernelWidth X) (kernelWidth Y)

end Verif.Hsic
