import Verif.Spec.Graph
import Mathlib.Data.List.Range

/-!
Model of small matrix utilities: `get_sink_variables`, `get_exo_variables`, `calculate_distance_from_root_nodes`
(`lingam/utils/__init__.py`) and `get_error_independence_p_values` (`lingam/base.py`, `lingam/rcd.py`,
`lingam/bottom_up_parce_lingam.py`).
-/
set_option autoImplicit false
namespace Verif.Utils

variable {K : Type} [Field K] [LinearOrder K]

/-! ### Sinks and exogenous variables -/

/-- `np.fill_diagonal(np.abs(am), 0)` (lingam/utils/__init__.py:158-160, 178-180). -/
def absNoDiag (B : Nat → Nat → K) (i j : Nat) : K := if i = j then 0 else |B i j|

/-- lingam/utils/__init__.py:145-162 `get_sink_variables`. -/
def getSink (n : Nat) (B : Nat → Nat → K) : List Nat :=
  (List.range n).filter (fun i => decide (((List.range n).map (fun r => absNoDiag B r i)).sum = 0))

/-- lingam/utils/__init__.py:165-182 `get_exo_variables`. -/
def getExo (n : Nat) (B : Nat → Nat → K) : List Nat :=
  (List.range n).filter (fun i => decide (((List.range n).map (fun c => absNoDiag B i c)).sum = 0))

/-! ### Distances from the root nodes -/

/-- lingam/utils/__init__.py:1049-1051: rows whose signed sum is close to 0 (`np.isclose`: `atol = 1e-8`). The matrix is the
one
after `nan_to_num` (line 1046). -/
def rootIndices (n : Nat) (B : Nat → Nat → K) : List Nat :=
  (List.range n).filter (fun i => decide (|((List.range n).map (B i)).sum| ≤ 1 / 10 ^ 8))

/-- lingam/utils/__init__.py:1055: Nodes reached from `s` by exactly `k` edges of `nx.from_numpy_array(adjacency_matrix.T)`
(line 1055). -/
def layer (n : Nat) (B : Nat → Nat → K) (s : Nat) : Nat → List Nat
  | 0 => [s]
  | k + 1 => (List.range n).filter (fun v => (layer n B s k).any (fun u => decide (B v u ≠ 0)))

/-- lingam/utils/__init__.py:1060: `nx.shortest_path_length(G, source=s)[v]` (line 1060); `none` if `v` is not a key. -/
def dist (n : Nat) (B : Nat → Nat → K) (s v : Nat) : Option Nat :=
  (List.range n).find? (fun k => decide (v ∈ layer n B s k))

/-- lingam/utils/__init__.py:1064-1065: `min` of two entries, missing ones count as the largest integer (lines 1064-1065). -/
def minOpt : Option Nat → Option Nat → Option Nat
  | none, b => b
  | a, none => a
  | some a, some b => some (min a b)

/-- lingam/utils/__init__.py:1058-1065: the smallest distance from a root; `none` if the node does not occur in
the data frame. -/
def rootDist (n : Nat) (B : Nat → Nat → K) (v : Nat) : Option Nat :=
  ((rootIndices n B).map (fun s => dist n B s v)).foldl minOpt none

/-- lingam/utils/__init__.py:1066-1067: `dist_df.values <= max_distance` (lines 1066-1067). -/
def within : Option Nat → Nat → Bool
  | none, _ => true
  | some m, d => decide (d ≤ m)

/-- lingam/utils/__init__.py:1062-1069: the sorted series `(node, distance)` after the filter by
`max_distance`. -/
def series (n : Nat) (B : Nat → Nat → K) (maxDist : Option Nat) : List (Nat × Nat) :=
  (List.range n).filterMap (fun v => ((rootDist n B v).filter (within maxDist)).map (fun d => (v, d)))

/-- lingam/utils/__init__.py:1071: `pd.unique`: values in order of first appearance (line 1071). -/
def unique : List Nat → List Nat → List Nat
  | _, [] => []
  | seen, x :: xs => if x ∈ seen then unique seen xs else x :: unique (x :: seen) xs

/-- lingam/utils/__init__.py:1015-1075 for a square matrix; `none` is the `ValueError` of line 1053. -/
def distanceFromRoots (n : Nat) (B : Nat → Nat → K) (maxDist : Option Nat) : Option (List (Nat × List Nat)) :=
  if rootIndices n B = [] then none
  else
    let s := series n B maxDist
    some ((unique [] (s.map Prod.snd)).map (fun d => (d, (s.filter (fun p => decide (p.2 = d))).map Prod.fst)))

/-! ### Independence of the error variables -/

/-- `itertools.combinations(range(n), 2)` (lingam/base.py:114). -/
def pairs (n : Nat) : List (Nat × Nat) :=
  (List.range n).flatMap (fun i => (List.range' (i + 1) (n - (i + 1))).map (fun j => (i, j)))

/-- `p_values[i, j] = v; p_values[j, i] = v` (lingam/base.py:118-119, lingam/rcd.py:486-487 and 493-494). -/
def setSym {α : Type} (P : Nat → Nat → α) (ij : Nat × Nat) (v : α) : Nat → Nat → α :=
  fun a b => if (a = ij.2 ∧ b = ij.1) ∨ (a = ij.1 ∧ b = ij.2) then v else P a b

/-- Column `i` of `E = X - np.dot(B, X.T).T` for `m` samples; NaN coefficients make the whole column NaN
(lingam/base.py:112, lingam/rcd.py:481). -/
def errorColumn (n m : Nat) (B : Nat → Nat → Option K) (X : Nat → Nat → K) (i : Nat) : List (Option K) :=
  (List.range m).map (fun s =>
    ((List.range n).map (fun j => (B i j).map (fun b => b * X s j))).foldl
      (fun acc t => match acc, t with | some a, some b => some (a - b) | _, _ => none) (some (X s i)))

/-- lingam/rcd.py:482 `nan_cols`: all indices occurring in a position of a NaN (rows and columns). -/
def nanCols (n : Nat) (B : Nat → Nat → Option K) : List Nat :=
  (List.range n).filter (fun i => (List.range n).any (fun j => (B i j).isNone || (B j i).isNone))

/-- lingam/base.py:93-121; `hsic` is the p-value of `hsic_test_gamma` on two columns. -/
def pValues (n m : Nat) (B : Nat → Nat → Option K) (X : Nat → Nat → K)
    (hsic : List (Option K) → List (Option K) → K) : Nat → Nat → Option K :=
  (pairs n).foldl (fun P ij => setSym P ij (some (hsic (errorColumn n m B X ij.1) (errorColumn n m B X ij.2))))
    (fun _ _ => some 0)

/-- lingam/rcd.py:462-496, lingam/bottom_up_parce_lingam.py:510-544. -/
def pValuesNan (n m : Nat) (B : Nat → Nat → Option K) (X : Nat → Nat → K)
    (hsic : List (Option K) → List (Option K) → K) : Nat → Nat → Option K :=
  (pairs n).foldl (fun P ij => setSym P ij
    (if ij.1 ∈ nanCols n B ∨ ij.2 ∈ nanCols n B then none
     else some (hsic (errorColumn n m B X ij.1) (errorColumn n m B X ij.2)))) (fun _ _ => some 0)

end Verif.Utils
