import Verif.Spec.Graph
import Mathlib.Data.List.Range

/-!
Model of `lingam/causal_effect.py`. Prediction models are oracles; `np.random.choice` is an arbitrary list of choices.
-/
set_option autoImplicit false
namespace Verif.Effect

variable {K : Type} [Field K] [LinearOrder K]

/-- lingam/causal_effect.py:63: The tolerance `1e-10` of line 63. -/
def eps : K := 1 / 10 ^ 10

/-- lingam/causal_effect.py:63: Row sum of absolute values of the remaining matrix (line 63); the remaining matrix is `B`
restricted to the
remaining original indices `orig` (lines 70-72). -/
def rowAbs (B : Nat → Nat → K) (orig : List Nat) (a : Nat) : K := (orig.map (fun b => |B a b|)).sum

/-- lingam/causal_effect.py:62-72: the loop; `none` is the `ValueError` of line 65. -/
def orderLoop (B : Nat → Nat → K) : Nat → List Nat → List Nat → Option (List Nat)
  | 0, _, acc => some acc
  | k + 1, orig, acc =>
    match orig.find? (fun a => decide (rowAbs B orig a < eps)) with
    | none => none
    | some a => orderLoop B k (orig.erase a) (acc ++ [a])

/-- lingam/causal_effect.py:58-75: `_check_init_params` for a square matrix of size `n`. -/
def causalOrder (n : Nat) (B : Nat → Nat → K) : Option (List Nat) := orderLoop B n (List.range n) []

/-- lingam/causal_effect.py:103, 162, 223, 250: `np.dot` of two vectors of length `n`. -/
def dot (n : Nat) (f g : Nat → K) : K := ((List.range n).map (fun j => f j * g j)).sum

/-- lingam/causal_effect.py:99-103: one iteration. -/
def propStep (n : Nat) (B : Nat → Nat → K) (En : Nat → K) (idx : Nat) (v : K) (eff : Nat → K) (i : Nat) : Nat → K :=
  fun k => if k = i then (if i = idx then v else dot n (B i) eff + En i) else eff k

/-- lingam/causal_effect.py:81-105: `_get_propagated_effects`. -/
def propagate (n : Nat) (order : List Nat) (B : Nat → Nat → K) (En : Nat → K) (idx : Nat) (v : K) : Nat → K :=
  order.foldl (propStep n B En idx v) (fun _ => 0)

/-- lingam/causal_effect.py:162, 223: `En = Ex - np.dot(B, Ex)`. -/
def noiseMean (n : Nat) (B : Nat → Nat → K) (Ex : Nat → K) (i : Nat) : K := Ex i - dot n (B i) Ex

/-- lingam/causal_effect.py:160: the variables other than the target; `e[vars_]`. -/
def others (n target : Nat) (e : Nat → K) : List K := ((List.range n).filter (fun i => decide (i ≠ target))).map e

/-- lingam/causal_effect.py:164-179: the two entries for variable `i`. `pred` is `_predict` (lines 107-131) of
an arbitrary model, `std i`
the standard deviation of column `i`. -/
def effectsOnPrediction (n : Nat) (order : List Nat) (B : Nat → Nat → K) (Ex std : Nat → K) (target : Nat)
    (pred : List K → K) (i : Nat) : K × K :=
  let En := noiseMean n B Ex
  let y := pred (others n target (propagate n order B En i (Ex i)))
  (|y - pred (others n target (propagate n order B En i (Ex i + std i)))|,
   |y - pred (others n target (propagate n order B En i (Ex i - std i)))|)

/-- lingam/causal_effect.py:234-246: State of the loop of lines 234-246. -/
structure Opt (K : Type) where
  s : List Nat
  Ex : Nat → K
  alpha : Nat → K

/-- lingam/causal_effect.py:236: the parents of `k`. -/
def parents (n : Nat) (B : Nat → Nat → K) (k : Nat) : List Nat := (List.range n).filter (fun q => decide (0 < |B k q|))

/-- lingam/causal_effect.py:226: variables whose *signed* coefficients sum to zero. -/
def rootVars (n : Nat) (B : Nat → Nat → K) : List Nat :=
  (List.range n).filter (fun k => decide (((List.range n).map (B k)).sum = 0))

/-- lingam/causal_effect.py:222-232: the initial state. -/
def optInit (n : Nat) (B : Nat → Nat → K) (Ex : Nat → K) (idx : Nat) : Opt K where
  s := (List.range n).filter (fun i => decide (i ≠ idx ∧ i ∉ rootVars n B))
  Ex := fun k => if k = idx then 0 else Ex k
  alpha := fun k => if k = idx then 1 else 0

/-- lingam/causal_effect.py:235-246: one iteration with the chosen `k`. `En` of line 223 (line 232 only changes
the entry at `idx`, which is
never read since `idx` is not in `s`). -/
def optStep (n : Nat) (B : Nat → Nat → K) (En : Nat → K) (idx : Nat) (st : Opt K) (k : Nat) : Opt K :=
  if (parents n B k).filter (fun q => decide (q ∈ st.s)) = [] then
    { s := st.s.erase k
      Ex := fun i => if i = k then
        (((parents n B k).filter (fun q => decide (q ≠ idx))).map (fun q => B k q * st.Ex q)).sum + En k else st.Ex i
      alpha := fun i => if i = k then ((parents n B k).map (fun q => B k q * st.alpha q)).sum else st.alpha i }
  else st

/-- lingam/causal_effect.py:234-246: The loop of lines 234-246 with the outcomes of `np.random.choice` listed: `none` if the
list is not a possible
complete sequence of choices. -/
def optRun (n : Nat) (B : Nat → Nat → K) (En : Nat → K) (idx : Nat) : List Nat → Opt K → Option (Opt K)
  | [], st => if st.s = [] then some st else none
  | k :: ks, st => if k ∈ st.s then optRun n B En idx ks (optStep n B En idx st k) else none

/-- lingam/causal_effect.py:248: `np.insert(coef_, target_index, 0)`. -/
def insertZero (coef : Nat → K) (target i : Nat) : K :=
  if i < target then coef i else if i = target then 0 else coef (i - 1)

/-- lingam/causal_effect.py:183-252: `estimate_optimal_intervention` for a linear model `coef`, `intercept`. -/
def optimal (n : Nat) (B : Nat → Nat → K) (Ex : Nat → K) (target : Nat) (coef : Nat → K) (intercept : K) (idx : Nat)
    (desired : K) (choices : List Nat) : Option K :=
  (optRun n B (noiseMean n B Ex) idx choices (optInit n B Ex idx)).map (fun st =>
    (desired - dot n (insertZero coef target) st.Ex - intercept) / dot n (insertZero coef target) st.alpha)

/-- lingam/causal_effect.py:107-131: `predict` of a linear regression: `np.dot(x, coef_) + intercept_`. -/
def linearPred (coef : Nat → K) (intercept : K) (x : List K) : K :=
  (x.zipIdx.map (fun p => coef p.2 * p.1)).sum + intercept

end Verif.Effect
