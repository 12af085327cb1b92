import Verif.Model.SimulatorDiscrete

/-!
Model of `CausalBasedSimulator.train` from the arguments as they are passed (`/repo/lingam/causal_based_simulator.py`): the name of the algorithm, the
data and the graph as arrays of any shape with any entries, the discrete variables and the models.  What `check_array` of scikit-learn does to an array
of numbers is part of the model.  Arrays with other contents than numbers are not modelled, and the regressions raise no exceptions.
-/
set_option autoImplicit false
namespace Verif.SimNames
open Verif.Simulator (Col)

variable {K : Type} [Field K] [LinearOrder K]

/-- An entry of an array of floating point numbers.  lingam/causal_based_simulator.py:514, 599, 671, 714. -/
inductive Entry (K : Type) where
  | num (x : K)
  | nan
  | inf

/-- The number in an entry; `causal_graph[np.isnan(causal_graph)] = 0` for NaN.  lingam/causal_based_simulator.py:677. -/
def Entry.val : Entry K → K
  | .num x => x
  | _ => 0

/-- An array: its shape and its entries.  lingam/causal_based_simulator.py:514, 599, 671, 714. -/
structure Arr (K : Type) where
  shape : List Nat
  get : List Nat → Entry K

/-- All index tuples of an array of the given shape.  lingam/causal_based_simulator.py:514, 599, 671, 714. -/
def indices : List Nat → List (List Nat)
  | [] => [[]]
  | d :: s => (List.range d).flatMap fun i => (indices s).map fun l => i :: l

/-- Whether `check_array` lets an entry pass.  lingam/causal_based_simulator.py:514, 599, 671, 714. -/
def passes (allowNan : Bool) : Entry K → Bool
  | .num _ => true
  | .nan => allowNan
  | .inf => false

/-- `check_array`: at least two dimensions, exactly two unless `allow_nd`, at least one row, for two dimensions at least one column, and finite
entries (with `force_all_finite="allow-nan"` NaN also passes); otherwise `ValueError`.  lingam/causal_based_simulator.py:514, 599, 671, 714. -/
def checkArray (allowNan allowNd : Bool) (a : Arr K) : Bool :=
  (match a.shape with
    | [] => false
    | [_] => false
    | [r, c] => decide (1 ≤ r) && decide (1 ≤ c)
    | r :: _ :: _ :: _ => allowNd && decide (1 ≤ r)) && (indices a.shape).all fun i => passes allowNan (a.get i)

/-- What is passed as `cd_algo_name`: `None`, a string or something else.  lingam/causal_based_simulator.py:60-63. -/
inductive AlgoArg where
  | none
  | other
  | str (s : Name)

/-- The three classes that hold the data.  lingam/causal_based_simulator.py:511, 665, 684. -/
inductive Kind where
  | plain
  | unobs
  | series
  deriving DecidableEq

/-- `cd_algo_name` and `_dispatch_impl`.  lingam/causal_based_simulator.py:60-65, 291-303. -/
def dispatch : AlgoArg → Except Err Kind
  | .none => .ok .plain
  | .other => .error .type
  | .str s =>
    if s = "DirectLiNGAM".toList then .ok .plain
    else if s = "ICALiNGAM".toList then .ok .plain
    else if s = "BottomUpParceLiNGAM".toList then .ok .unobs
    else if s = "VARLiNGAM".toList then .ok .series
    else .error .value

/-- `_check_causal_graph` of the plain handler.  lingam/causal_based_simulator.py:597-607. -/
def plainGraph (n : Nat) (a : Arr K) : Except Err (Nat → Nat → K) :=
  if checkArray false false a then if a.shape ≠ [n, n] then .error .value else .ok fun i j => (a.get [i, j]).val else .error .value

/-- `_check_causal_graph` for results with unobserved common causes; the `RuntimeError` of the shape becomes a `ValueError`.
lingam/causal_based_simulator.py:668-681. -/
def nanGraph (n : Nat) (a : Arr K) : Except Err (Nat → Nat → K) :=
  if checkArray true false a then if a.shape ≠ [n, n] then .error .value else .ok fun i j => (a.get [i, j]).val else .error .value

/-- `_check_causal_graph` for time series: the number of lags and the matrix over all lags.  lingam/causal_based_simulator.py:712-730. -/
def seriesGraph (n : Nat) (a : Arr K) : Except Err (Nat × (Nat → Nat → K)) :=
  if checkArray false true a then
    match a.shape with
    | [m, r, c] => if r ≠ n ∨ c ≠ n then .error .value else .ok (m - 1, Simulator.tsGraph n fun l i j => (a.get [l, i, j]).val)
    | _ => .error .value
  else .error .value

/-- Exceptions of `train`.  lingam/causal_based_simulator.py:58-74, 621, 755. -/
inductive TrainErr where
  | arg (e : Err)
  | index
  deriving DecidableEq

/-- The constructors of the handlers up to the check for cycles (which is in `train`).  lingam/causal_based_simulator.py:513-534, 687-691, 609-623,
732-757. -/
def build (k : Kind) (X : Arr K) (labels : Option (List Label)) (a : Arr K) (flags : Flags) : Except TrainErr (Handler K) :=
  if checkArray false false X then
    let rows := X.shape.getD 0 0
    let n := X.shape.getD 1 0
    match k with
    | .plain => match plainGraph n a with
      | .error e => .error (.arg e)
      | .ok G => match plainDiscrete (plainNames n labels) flags with
        | .error _ => .error .index
        | .ok d => .ok ⟨plainNames n labels, d, G, fun j r => (X.get [r, j]).val, rows⟩
    | .unobs => match nanGraph n a with
      | .error e => .error (.arg e)
      | .ok G => match plainDiscrete (plainNames n labels) flags with
        | .error _ => .error .index
        | .ok d => .ok ⟨plainNames n labels, d, G, fun j r => (X.get [r, j]).val, rows⟩
    | .series => match seriesGraph n a with
      | .error e => .error (.arg e)
      | .ok (L, G) => match tsNames n L labels with
        | .error e => .error (.arg e)
        | .ok names => match seriesDiscrete names L flags with
          | .error _ => .error .index
          | .ok d => .ok ⟨names, d, G, Simulator.tsData n L fun r j => (X.get [r, j]).val, rows - L⟩
  else .error (.arg .value)

/-- `train` on an object in the state `st`: the new state and the exception, if any.  lingam/causal_based_simulator.py:29-74. -/
def trainCall (st : State K) (alg : AlgoArg) (X : Arr K) (labels : Option (List Label)) (a : Arr K) (flags : Flags) (models : DictArg (UserModel K)) :
    State K × Except TrainErr Unit :=
  match dispatch alg with
  | .error e => (st, .error (.arg e))
  | .ok k => match build k X labels a flags with
    | .error e => (st, .error e)
    | .ok h => match train h models with
      | .error e => (st, .error (.arg e))
      | .ok st' => (st', .ok ())

end Verif.SimNames
