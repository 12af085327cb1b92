import Verif.Spec.Graph
import Verif.Model.Bootstrap
import Verif.Model.DirectLingam

/-!
Model of `lingam/ica_lingam.py`. FastICA is an oracle (an arbitrary matrix `W`). NaN entries are not modelled.
-/
set_option autoImplicit false
namespace Verif.Ica

/-- lingam/ica_lingam.py:56-70: Matrix entries are exact rationals. -/
abbrev Mat := Nat → Nat → ℚ

/-- `np.delete(np.arange(k), t)[i]` (lingam/ica_lingam.py:105). -/
def skip (t i : Nat) : Nat := if i < t then i else i + 1

/-- `np.sum(np.abs(matrix), axis=1)[i]` for a `k × k` matrix (lingam/ica_lingam.py:95). -/
def rowAbsSum (k : Nat) (m : Mat) (i : Nat) : ℚ := ((List.range k).map (fun j => |m i j|)).sum

/-- lingam/ica_lingam.py:93-106: the `while` loop; `k` = current size, `orig` = `original_index`, `acc` = `causal_order`. -/
def searchLoop : Nat → Mat → List Nat → List Nat → List Nat
  | 0, _, _, acc => acc
  | k + 1, m, orig, acc =>
    match (List.range (k + 1)).find? (fun i => decide (rowAbsSum (k + 1) m i = 0)) with
    | none => acc
    | some t => searchLoop k (fun i j => m (skip t i) (skip t j)) (orig.eraseIdx t) (acc ++ [orig.getD t 0])

/-- lingam/ica_lingam.py:75-112 `_search_causal_order` on an `n × n` matrix. -/
def searchOrder (n : Nat) (m : Mat) : Option (List Nat) :=
  let o := searchLoop n m (List.range n) []
  if o.length = n then some o else none

/-- `matrix[i, j] = 0` (lingam/ica_lingam.py:134, 142). -/
def setZero (m : Mat) (p : Nat × Nat) : Mat := fun i j => if i = p.1 ∧ j = p.2 then 0 else m i j

/-- lingam/ica_lingam.py:136-142: the second `for` loop over the remaining positions. -/
def pruneLoop (n : Nat) : List (Nat × Nat) → Mat → Option (List Nat)
  | [], _ => none
  | p :: ps, m =>
    match searchOrder n m with
    | some o => some o
    | none => pruneLoop n ps (setZero m p)

/-- lingam/ica_lingam.py:130-131: the positions in the order of `np.argsort` of the flattened absolute values. -/
def positions (as : Boot.Argsort) (n : Nat) (m : Mat) : List (Nat × Nat) :=
  (as.run ((List.range (n * n)).map (fun f => |m (f / n) (f % n)|))).map (fun f => (f / n, f % n))

/-- lingam/ica_lingam.py:114-144 `_estimate_causal_order`. -/
def estimateOrder (as : Boot.Argsort) (n : Nat) (m : Mat) : Option (List Nat) :=
  let pos := positions as n m
  let init := n * (n + 1) / 2
  pruneLoop n (pos.drop init) ((pos.take init).foldl setZero m)

/-- `scipy.optimize.linear_sum_assignment(1 / np.abs(W))[1]` (lingam/ica_lingam.py:58): `none` is its `ValueError`
("cost matrix is infeasible"); zero entries of `W` have infinite cost. Any tie-breaking is allowed. -/
structure Assign where
  run : Nat → Mat → Option (List Nat)
  perm : ∀ n W c, run n W = some c → IsOrder n c
  finite : ∀ n W c, run n W = some c → ∀ i, i < n → W i (c.getD i 0) ≠ 0
  minimal : ∀ n W c, run n W = some c → ∀ c', IsOrder n c' → (∀ i, i < n → W i (c'.getD i 0) ≠ 0) →
    ((List.range n).map (fun i => 1 / |W i (c.getD i 0)|)).sum ≤ ((List.range n).map (fun i => 1 / |W i (c'.getD i 0)|)).sum
  feasible : ∀ n W c, IsOrder n c → (∀ i, i < n → W i (c.getD i 0) ≠ 0) → ∃ c', run n W = some c'

/-- lingam/ica_lingam.py:59-60 `PW_ica = zeros_like; PW_ica[col_index] = W_ica` (the last assignment to a row wins). -/
def permuteRows (n : Nat) (c : List Nat) (W : Mat) : Mat := fun r j =>
  match (List.range n).reverse.find? (fun i => decide (c.getD i 0 = r)) with
  | some i => W i j
  | none => 0

/-- lingam/ica_lingam.py:63-67: `B_estimate = eye - PW / diag(PW)`. -/
def bEstimate (P : Mat) : Mat := fun i j => (if i = j then 1 else 0) - P i j / P i i

/-- lingam/ica_lingam.py:59 (`linear_sum_assignment` infeasible), 70-137 (no order found): Outcomes other than
success. -/
inductive Err | infeasible | noOrder
deriving DecidableEq, Repr

/-- lingam/ica_lingam.py:37-73 `fit`; `W` is what FastICA returned; `noOrder` is the `TypeError` of `len(None)` in
lingam/base.py:144. -/
def fit (as : Boot.Argsort) (asg : Assign) (lasso : Direct.Lasso ℚ) (n : Nat) (W : Mat) : Except Err (List Nat × Mat) :=
  match asg.run n W with
  | none => .error .infeasible
  | some c =>
    match estimateOrder as n (bEstimate (permuteRows n c W)) with
    | none => .error .noOrder
    | some order => .ok (order, Direct.estimateAdj none lasso order)

end Verif.Ica
