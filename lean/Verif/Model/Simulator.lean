import Mathlib.Algebra.Order.Field.Basic
import Mathlib.Algebra.Order.Ring.Abs
import Mathlib.Algebra.BigOperators.Group.List.Basic
import Mathlib.Data.List.Basic

/-!
Model of `lingam/causal_based_simulator.py` (`CausalBasedSimulator` with the data handlers `CBSILiNGAM`,
`CBSIUnobsCommonCauseLiNGAM` and `CBSITimeSeriesLiNGAM`).  Variables are identified by their column number; the
code uses names, which it requires to be unique.  A column is a function from the row number to the value.
Regression and classification models are arbitrary functions of the matrix of parent columns.
-/
set_option autoImplicit false
namespace Verif.Simulator

variable {K : Type} [Field K] [LinearOrder K]

/-- lingam/causal_based_simulator.py:563-573: A data column. -/
abbrev Col (K : Type) := Nat → K

/-- lingam/causal_based_simulator.py:330-345, 390-410: A trained model: `model.predict` on the matrix whose columns
are given. -/
abbrev Predictor (K : Type) := List (Col K) → Col K

/-- lingam/causal_based_simulator.py:524, 592: Errors. -/
inductive Err where
  | valueError      -- cyclic graph
  | missing         -- a column is used that has not been simulated yet (NaN / no model)
  deriving DecidableEq

/-- lingam/causal_based_simulator.py:640: rows whose absolute sum within the remaining columns is zero. -/
def rowSum (G : Nat → Nat → K) (idx : List Nat) (i : Nat) : K := (idx.map (fun j => |G i j|)).sum

/-- lingam/causal_based_simulator.py:637-655: the loop; `idx` is `original_index`, the matrix is `G` restricted to it.
The recursion is on the number of remaining rows. -/
def orderLoop (G : Nat → Nat → K) : Nat → List Nat → List Nat → List Nat
  | 0, _, acc => acc
  | f + 1, idx, acc =>
    match idx.find? (fun i => decide (rowSum G idx i = 0)) with
    | none => acc
    | some i => orderLoop G f (idx.erase i) (acc ++ [i])

/-- lingam/causal_based_simulator.py:625-660 `_calc_causal_order`; `none` is Python's `None`. -/
def calcOrder (G : Nat → Nat → K) (n : Nat) : Option (List Nat) :=
  let o := orderLoop G n (List.range n) []
  if o.length = n then some o else none

/-- lingam/causal_based_simulator.py:550-560 `get_parent_names`: entries that are not `np.isclose` to zero. -/
def parents (G : Nat → Nat → K) (n v : Nat) : List Nat :=
  (List.range n).filter (fun j => decide ((1 / 10 ^ 8 : K) < |G v j|))

/-- lingam/causal_based_simulator.py:513-534: What is known about the training data: size, graph, columns and which
variables are discrete. -/
structure Impl (K : Type) where
  n : Nat
  graph : Nat → Nat → K
  data : Nat → Col K
  discrete : Nat → Bool

/-- One entry of `train_result_` (lingam/causal_based_simulator.py:311-350). -/
structure Trained (K : Type) where
  model : Option (Predictor K)
  residual : Option (Col K)

/-- lingam/causal_based_simulator.py:305-352 `_train` for one variable.  `fitM v X y` is the model fitted for `v`. -/
def trainVar (I : Impl K) (fitM : Nat → List (Col K) → Col K → Predictor K) (v : Nat) : Trained K :=
  if (parents I.graph I.n v).isEmpty then ⟨none, some (I.data v)⟩
  else
    let X := (parents I.graph I.n v).map I.data
    let m := fitM v X (I.data v)
    ⟨some m, if I.discrete v then none else some (fun r => I.data v r - m X r)⟩

/-- A change of the model of a variable: the new parents and, if there are any, the new predictor
(lingam/causal_based_simulator.py:226-287). -/
structure Change (K : Type) where
  parents : List Nat
  model : Predictor K

/-- lingam/causal_based_simulator.py:580-586: the graph with the changed rows. -/
def changedGraph (G : Nat → Nat → K) (cm : Nat → Option (Change K)) : Nat → Nat → K := fun i j =>
  match cm i with
  | none => G i j
  | some c => if j ∈ c.parents then 1 else 0

/-- lingam/causal_based_simulator.py:575-595 `get_causal_order`. -/
def getOrder (I : Impl K) (cm : Nat → Option (Change K)) : Except Err (List Nat) :=
  match calcOrder (changedGraph I.graph cm) I.n with
  | none => Except.error Err.valueError
  | some o => Except.ok o

/-- Parents used for `v` (lingam/causal_based_simulator.py:382-386). -/
def parentsOf (I : Impl K) (cm : Nat → Option (Change K)) (v : Nat) : List Nat :=
  match cm v with
  | none => parents I.graph I.n v
  | some c => c.parents

/-- The model used for `v` (lingam/causal_based_simulator.py:406-409). -/
def modelOf (I : Impl K) (fitM : Nat → List (Col K) → Col K → Predictor K) (cm : Nat → Option (Change K)) (v : Nat) :
    Option (Predictor K) :=
  match cm v with
  | none => (trainVar I fitM v).model
  | some c => some c.model

/-- The error term of `v` (lingam/causal_based_simulator.py:388-395), with the rows permuted by `sh` if shuffling is on. -/
def errorOf (I : Impl K) (fitM : Nat → List (Col K) → Col K → Predictor K) (ce : Nat → Option (Col K))
    (sh : Option (Nat → Nat)) (v : Nat) : Option (Col K) :=
  let e := match ce v with
    | none => (trainVar I fitM v).residual
    | some x => some x
  match sh with
  | none => e
  | some σ => e.map (fun x r => x (σ r))

/-- lingam/causal_based_simulator.py:385-410: The columns of the given variables, if all are there. -/
def columns (sim : Nat → Option (Col K)) (l : List Nat) : Option (List (Col K)) := l.mapM sim

/-- lingam/causal_based_simulator.py:377-419: the body of the loop for one variable. -/
def simVar (I : Impl K) (fitM : Nat → List (Col K) → Col K → Predictor K) (ce : Nat → Option (Col K))
    (cm : Nat → Option (Change K)) (sh : Option (Nat → Nat)) (sim : Nat → Option (Col K)) (v : Nat) :
    Except Err (Col K) :=
  if (parentsOf I cm v).isEmpty then
    if I.discrete v then Except.ok (I.data v)
    else
      match errorOf I fitM ce sh v with
      | none => Except.error Err.missing
      | some e => Except.ok e
  else
    match modelOf I fitM cm v, columns sim (parentsOf I cm v) with
    | some m, some X =>
      if I.discrete v then Except.ok (m X)
      else
        match errorOf I fitM ce sh v with
        | none => Except.error Err.missing
        | some e => Except.ok (fun r => m X r + e r)
    | _, _ => Except.error Err.missing

/-- lingam/causal_based_simulator.py:354-421: The loop over the causal order. -/
def simLoop (I : Impl K) (fitM : Nat → List (Col K) → Col K → Predictor K) (ce : Nat → Option (Col K))
    (cm : Nat → Option (Change K)) (sh : Option (Nat → Nat)) :
    List Nat → (Nat → Option (Col K)) → Except Err (Nat → Option (Col K))
  | [], sim => Except.ok sim
  | v :: vs, sim =>
    match simVar I fitM ce cm sh sim v with
    | Except.error e => Except.error e
    | Except.ok c => simLoop I fitM ce cm sh vs (fun u => if u = v then some c else sim u)

/-- lingam/causal_based_simulator.py:76-150, 354-421: `run`. -/
def run (I : Impl K) (fitM : Nat → List (Col K) → Col K → Predictor K) (ce : Nat → Option (Col K))
    (cm : Nat → Option (Change K)) (sh : Option (Nat → Nat)) : Except Err (Nat → Option (Col K)) :=
  match getOrder I cm with
  | Except.error e => Except.error e
  | Except.ok o => simLoop I fitM ce cm sh o (fun _ => none)

/-- lingam/causal_based_simulator.py:513-526: training is refused for a cyclic graph. -/
def train (I : Impl K) : Except Err Unit :=
  match calcOrder I.graph I.n with
  | none => Except.error Err.valueError
  | some _ => Except.ok ()

/-! ### Time series -/

/-- lingam/causal_based_simulator.py:713-731: the graph over all lags, `np.concatenate(causal_graph, axis=1)` in the first
`n` rows and zeros below; node `n * lag + i` is variable `i` at that lag. -/
def tsGraph (n : Nat) (B : Nat → Nat → Nat → K) : Nat → Nat → K := fun r c =>
  if r < n then B (c / n) r (c % n) else 0

/-- lingam/causal_based_simulator.py:695-711 `get_data`: row `r` of node `n * lag + i` is `X[n_lags - lag + r, i]`. -/
def tsData (n L : Nat) (X : Nat → Nat → K) (v r : Nat) : K := X (L - v / n + r) (v % n)

/-- lingam/causal_based_simulator.py:684-757: the handler for a model with `L` lags. -/
def tsImpl (n L : Nat) (B : Nat → Nat → Nat → K) (X : Nat → Nat → K) (disc : Nat → Bool) : Impl K :=
  ⟨n * (L + 1), tsGraph n B, tsData n L X, fun v => disc (v % n)⟩

/-- lingam/causal_based_simulator.py:665-681: missing coefficients (NaN) count as zero. -/
def unobsGraph (G : Nat → Nat → Option K) : Nat → Nat → K := fun i j => (G i j).getD 0

/-- lingam/causal_based_simulator.py:665-681: the handler of `BottomUpParceLiNGAM` results. -/
def unobsImpl (n : Nat) (G : Nat → Nat → Option K) (data : Nat → Col K) (disc : Nat → Bool) : Impl K :=
  ⟨n, unobsGraph G, data, disc⟩

/-- lingam/causal_based_simulator.py:759-773 `_LinearRegression.predict`: the model built from `coef` (lines 266-277). -/
def coefModel (coef : List K) : Predictor K := fun X r =>
  ((coef.zip X).map (fun p => p.1 * p.2 r)).sum

end Verif.Simulator
