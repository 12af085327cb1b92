import Verif.Model.SimulatorNames

/-!
Model of the argument `is_discrete` of `CausalBasedSimulator.train` (`/repo/lingam/causal_based_simulator.py`): the value passed by
the user is the index of a numpy array of names.
-/
set_option autoImplicit false
namespace Verif.SimNames

/-- What can be passed as `is_discrete`, lingam/causal_based_simulator.py:29, 618, 749: nothing, a list of `bool`, a list of `int`, a
numpy array of booleans or of integers.  Lists that mix both are not modelled. -/
inductive Flags where
  | none
  | bools (l : List Bool)
  | ints (l : List Int)
  | boolArray (l : List Bool)
  | intArray (l : List Int)

/-- lingam/causal_based_simulator.py:621, 755: the outcome of indexing other than a list of names is an `IndexError`. -/
inductive IndexErr where
  | index
  deriving DecidableEq

/-- `np.array(names)[mask]`: the lengths must agree, lingam/causal_based_simulator.py:621, 755. -/
def maskNames (names : List Name) (m : List Bool) : Except IndexErr (List Name) :=
  if m.length ≠ names.length then .error .index
  else .ok (((names.zip m).filter (fun p => p.2)).map Prod.fst)

/-- `np.array(names)[k]` for one integer: negative numbers count from the end, lingam/causal_based_simulator.py:621, 755. -/
def takeName (names : List Name) (k : Int) : Except IndexErr Name :=
  if 0 ≤ k then
    match names[k.toNat]? with
    | some s => .ok s
    | none => .error .index
  else if (-k).toNat ≤ names.length then .ok (names.getD (names.length - (-k).toNat) [])
  else .error .index

/-- `np.array(names)[numbers]`, lingam/causal_based_simulator.py:621, 755. -/
def takeNames (names : List Name) (l : List Int) : Except IndexErr (List Name) := l.mapM (takeName names)

/-- `discrete_endog_names` for data without time, lingam/causal_based_simulator.py:618-621; an empty list selects nothing. -/
def plainDiscrete (names : List Name) : Flags → Except IndexErr (List Name)
  | .none => .ok []
  | .bools l => if l.isEmpty then .ok [] else maskNames names l
  | .ints l => takeNames names l
  | .boolArray l => maskNames names l
  | .intArray l => takeNames names l

/-- A list times a number is the list repeated, lingam/causal_based_simulator.py:753. -/
def repeated {α : Type} (l : List α) (k : Nat) : List α := (List.replicate k l).flatten

/-- `discrete_endog_names` for a time series with `L` lags, lingam/causal_based_simulator.py:749-755.  A numpy array times a number
is computed entry by entry; booleans become the numbers 0 and `L + 1`. -/
def seriesDiscrete (names : List Name) (L : Nat) : Flags → Except IndexErr (List Name)
  | .none => .ok []
  | .bools l => if l.isEmpty then .ok [] else maskNames names (repeated l (L + 1))
  | .ints l => takeNames names (repeated l (L + 1))
  | .boolArray l => takeNames names (l.map (fun b => if b then ((L + 1 : Nat) : Int) else 0))
  | .intArray l => takeNames names (l.map (fun k => k * ((L + 1 : Nat) : Int)))

end Verif.SimNames
