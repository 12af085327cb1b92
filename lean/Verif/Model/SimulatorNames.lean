import Verif.Model.Simulator

/-!
Model of the outer layer of `CausalBasedSimulator` (`/repo/lingam/causal_based_simulator.py`): names of variables, checks of the
arguments and dictionaries with names as keys.  `Verif.Model.Simulator` is the same computation with column numbers.
The regressions are arbitrary functions.
-/
set_option autoImplicit false
namespace Verif.SimNames
open Verif.Simulator (Col Predictor)

variable {K : Type} [Field K] [LinearOrder K]

/-- A Python string. -/
abbrev Name := List Char

/-- Python values used as keys and as labels of columns, lingam/causal_based_simulator.py:613, 735. -/
inductive Label where
  | int (i : Int)
  | str (s : Name)
  deriving DecidableEq

/-- The classes of exceptions, lingam/causal_based_simulator.py:61, 124, 193-287, 524, 592. -/
inductive Err where
  | runtime
  | type
  | key
  | value
  | attribute
  deriving DecidableEq

/-- `f"{i:d}"` and `str(i)` of a natural number, lingam/causal_based_simulator.py:614-616, 744. -/
def digits (i : Nat) : Name := Nat.toDigits 10 i

/-- `str(endog_name)`, lingam/causal_based_simulator.py:614. -/
def strOf : Label → Name
  | .int i => if i < 0 then '-' :: digits i.natAbs else digits i.natAbs
  | .str s => s

/-- Names of the variables; `none` is an array without labels.  lingam/causal_based_simulator.py:609-616. -/
def plainNames (n : Nat) : Option (List Label) → List Name
  | some labels => labels.map strOf
  | none => (List.range n).map digits

/-- The time index appended to a name, lingam/causal_based_simulator.py:741-744. -/
def timeIndex (i : Nat) : Name := if i = 0 then ['[', 't', ']'] else ['[', 't', '-'] ++ digits i ++ [']']

/-- `name + index_format` for one label: an integer cannot be added to a string.  lingam/causal_based_simulator.py:745. -/
def addIndex (i : Nat) : Label → Except Err Name
  | .int _ => .error .type
  | .str s => .ok (s ++ timeIndex i)

/-- Names of the variables at all lags, lingam/causal_based_simulator.py:732-745. -/
def tsNames (n L : Nat) (labels : Option (List Label)) : Except Err (List Name) :=
  let base : List Label := match labels with
    | some l => l
    | none => (List.range n).map (fun i => Label.str (digits i))
  ((List.range (L + 1)).flatMap (fun i => base.map (fun l => (i, l)))).mapM (fun p => addIndex p.1 p.2)

/-- `np.array(endog_names)[is_discrete]`, lingam/causal_based_simulator.py:618-621. -/
def discreteNames (names : List Name) : Option (List Bool) → List Name
  | none => []
  | some d => ((names.zip d).filter (fun p => p.2)).map Prod.fst

/-- What the handlers keep.  lingam/causal_based_simulator.py:526-534. -/
structure Handler (K : Type) where
  names : List Name
  disc : List Name
  graph : Nat → Nat → K
  data : Nat → Col K
  rows : Nat

/-- A model of scikit-learn (for `Pipeline` and the searches: of its last step).  `fit` trains a clone, `predict` is used for models that
are already trained.  lingam/causal_based_simulator.py:156-186, 321-333. -/
structure UserModel (K : Type) where
  regressor : Bool
  classifier : Bool
  hasProba : Bool
  fit : List (Col K) → Col K → Predictor K
  predict : Predictor K

/-- An argument that must be a dictionary or `None`. -/
inductive DictArg (α : Type) where
  | none
  | other
  | dict (entries : List (Label × α))

/-- `_check_model_instance`, lingam/causal_based_simulator.py:156-186. -/
def checkModel (m : UserModel K) (discrete : Bool) : Except Err Unit :=
  if discrete then
    if !m.classifier then .error .runtime else if !m.hasProba then .error .runtime else .ok ()
  else if !m.regressor then .error .runtime else .ok ()

/-- The loop of `_check_models`; the keys found in `endog_names` are strings.  lingam/causal_based_simulator.py:195-199. -/
def checkModelList (h : Handler K) : List (Label × UserModel K) → Except Err (List (Name × UserModel K))
  | [] => .ok []
  | (.int _, _) :: _ => .error .runtime
  | (.str s, m) :: l =>
    if s ∉ h.names then .error .runtime
    else match checkModel m (decide (s ∈ h.disc)) with
      | .error e => .error e
      | .ok _ => match checkModelList h l with
        | .error e => .error e
        | .ok r => .ok ((s, m) :: r)

/-- `_check_models`, lingam/causal_based_simulator.py:188-201. -/
def checkModels (h : Handler K) : DictArg (UserModel K) → Except Err (List (Name × UserModel K))
  | .none => .ok []
  | .other => .error .runtime
  | .dict l => checkModelList h l

/-- Values for an error term: an array or a list, flattened; `none` is NaN.  lingam/causal_based_simulator.py:217-221. -/
structure Values (K : Type) where
  isList : Bool
  cells : List (Option K)

/-- The loop of `_check_changing_exog`; `check_array` refuses NaN and an empty array.  lingam/causal_based_simulator.py:210-222. -/
def checkExogList (h : Handler K) : List (Label × Values K) → Except Err (List (Name × Values K))
  | [] => .ok []
  | (.int _, _) :: _ => .error .runtime
  | (.str s, v) :: l =>
    if s ∉ h.names then .error .runtime
    else if s ∈ h.disc then .error .runtime
    else if v.cells.any Option.isNone || v.cells.isEmpty then .error .value
    else if v.cells.length ≠ h.rows then .error .runtime
    else match checkExogList h l with
      | .error e => .error e
      | .ok r => .ok ((s, v) :: r)

/-- `_check_changing_exog`, lingam/causal_based_simulator.py:203-224. -/
def checkExog (h : Handler K) : DictArg (Values K) → Except Err (List (Name × Values K))
  | .none => .ok []
  | .other => .error .runtime
  | .dict l => checkExogList h l

/-- One value of the dictionary `changing_models`.  `parentNames`: `none` = no such key, `some none` = not a list.  `coef`: `none` = no such
key, `some none` = something `check_array` refuses.  `model`: `none` = no such key, `some none` = the value `None`.
lingam/causal_based_simulator.py:233-285. -/
structure Info (K : Type) where
  isDict : Bool
  parentNames : Option (Option (List Label))
  coef : Option (Option (List K))
  model : Option (Option (UserModel K))

/-- An accepted change, lingam/causal_based_simulator.py:257, 276, 285. -/
structure Changed (K : Type) where
  parents : List Name
  model : Option (Predictor K)

/-- `expit(coef @ X.T) >= 0.5`, lingam/causal_based_simulator.py:782-785. -/
def logitModel (coef : List K) : Predictor K := fun X r => if 0 ≤ ((coef.zip X).map (fun p => p.1 * p.2 r)).sum then 1 else 0

/-- The names in `parent_names`; anything that is not the name of a variable is refused.  lingam/causal_based_simulator.py:252-254. -/
def checkParents (h : Handler K) : List Label → Except Err (List Name)
  | [] => .ok []
  | .int _ :: _ => .error .runtime
  | .str s :: l => if s ∉ h.names then .error .runtime else match checkParents h l with
    | .error e => .error e
    | .ok r => .ok (s :: r)

/-- The body of the loop of `_check_changing_models` for one entry.  lingam/causal_based_simulator.py:235-285. -/
def checkChange (h : Handler K) (k : Label) (i : Info K) : Except Err (Name × Changed K) :=
  if !i.isDict then .error .runtime
  else match k with
    | .int _ => .error .type
    | .str t =>
      if t ∉ h.names then .error .runtime
      else match i.parentNames with
        | none => .error .key
        | some none => .error .key
        | some (some ps) => match checkParents h ps with
          | .error e => .error e
          | .ok [] => .ok (t, ⟨[], none⟩)
          | .ok (p :: ps) =>
            match i.coef with
            | some none => .error .value
            | some (some c) =>
              if c.length ≠ (p :: ps).length then .error .value
              else .ok (t, ⟨p :: ps, some (if t ∈ h.disc then logitModel c else Simulator.coefModel c)⟩)
            | none => match i.model with
              | none => .error .key
              | some none => .error .key
              | some (some m) => match checkModel m (decide (t ∈ h.disc)) with
                | .error e => .error e
                | .ok _ => .ok (t, ⟨p :: ps, some m.predict⟩)

/-- The loop of `_check_changing_models`, lingam/causal_based_simulator.py:233-287. -/
def checkChangeList (h : Handler K) : List (Label × Info K) → Except Err (List (Name × Changed K))
  | [] => .ok []
  | (k, i) :: l => match checkChange h k i with
    | .error e => .error e
    | .ok c => match checkChangeList h l with
      | .error e => .error e
      | .ok r => .ok (c :: r)

/-- `_check_changing_models`, lingam/causal_based_simulator.py:226-289. -/
def checkChanges (h : Handler K) : DictArg (Info K) → Except Err (List (Name × Changed K))
  | .none => .ok []
  | .other => .error .runtime
  | .dict l => checkChangeList h l

/-- `d[key]` of a dictionary. -/
def look {α : Type} (d : List (Name × α)) (s : Name) : Option α := (d.find? (fun e => decide (e.1 = s))).map Prod.snd

/-- `endog_names.index(name)`, lingam/causal_based_simulator.py:555, 569, 582-583. -/
def Handler.index (h : Handler K) (s : Name) : Nat := h.names.idxOf s

/-- `get_parent_names`, lingam/causal_based_simulator.py:550-560. -/
def Handler.parents (h : Handler K) (s : Name) : List Name :=
  (Simulator.parents h.graph h.names.length (h.index s)).map (fun j => h.names.getD j [])

/-- `get_data` for one name, lingam/causal_based_simulator.py:562-573. -/
def Handler.column (h : Handler K) (s : Name) : Col K := h.data (h.index s)

/-- The default models, lingam/causal_based_simulator.py:325-328. -/
structure Defaults (K : Type) where
  linear : List (Col K) → Col K → Predictor K
  logistic : List (Col K) → Col K → Predictor K

/-- The model fitted for a variable, lingam/causal_based_simulator.py:319-330. -/
def fitFor (h : Handler K) (D : Defaults K) (ms : List (Name × UserModel K)) (s : Name) : List (Col K) → Col K → Predictor K :=
  match look ms s with
  | some m => m.fit
  | none => if s ∈ h.disc then D.logistic else D.linear

/-- `train_result_[name]`, lingam/causal_based_simulator.py:305-352. -/
def trained (h : Handler K) (D : Defaults K) (ms : List (Name × UserModel K)) (s : Name) : Simulator.Trained K :=
  if (h.parents s).isEmpty then ⟨none, some (h.column s)⟩
  else
    let X := (h.parents s).map h.column
    let m := fitFor h D ms s X (h.column s)
    ⟨some m, if s ∈ h.disc then none else some (fun r => h.column s r - m X r)⟩

/-- The state of the simulator object; `none` before `train`, when `_train_result` does not exist.
lingam/causal_based_simulator.py:64-74, 123. -/
abbrev State (K : Type) := Option (Handler K × List (Name × UserModel K))

/-- `train` for a handler that could be constructed.  lingam/causal_based_simulator.py:62-74, 519-524. -/
def train (h : Handler K) (models : DictArg (UserModel K)) : Except Err (State K) :=
  match Simulator.calcOrder h.graph h.names.length with
  | none => .error .value
  | some _ => match checkModels h models with
    | .error e => .error e
    | .ok ms => .ok (some (h, ms))

/-- One changed row: zeros, then ones at the parents.  lingam/causal_based_simulator.py:581-586. -/
def changeRow (h : Handler K) (G : Nat → Nat → K) (e : Name × Changed K) : Nat → Nat → K := fun i j =>
  if i = h.index e.1 then (if j ∈ e.2.parents.map h.index then 1 else 0) else G i j

/-- `get_causal_order`, lingam/causal_based_simulator.py:575-595. -/
def getOrder (h : Handler K) (cm : List (Name × Changed K)) : Except Err (List Name) :=
  match Simulator.calcOrder (cm.foldl (changeRow h) h.graph) h.names.length with
  | none => .error .value
  | some o => .ok (o.map (fun j => h.names.getD j []))

/-- The parents used for a variable, lingam/causal_based_simulator.py:381-386. -/
def parentsOf (h : Handler K) (cm : List (Name × Changed K)) (s : Name) : List Name :=
  match look cm s with
  | none => h.parents s
  | some c => c.parents

/-- The error term used for a variable; a list has no method `ravel`.  lingam/causal_based_simulator.py:388-395. -/
def errorOf (h : Handler K) (D : Defaults K) (ms : List (Name × UserModel K)) (ce : List (Name × Values K)) (sh : Option (Nat → Nat))
    (s : Name) : Except Err (Option (Col K)) :=
  let e : Except Err (Option (Col K)) := match look ce s with
    | none => .ok (trained h D ms s).residual
    | some v => if v.isList then .error .attribute else .ok (some (fun r => (v.cells.getD r none).getD 0))
  match sh, e with
  | some σ, .ok x => .ok (x.map (fun c r => c (σ r)))
  | _, e => e

/-- The model used for a variable with parents, lingam/causal_based_simulator.py:405-409. -/
def modelOf (h : Handler K) (D : Defaults K) (ms : List (Name × UserModel K)) (cm : List (Name × Changed K)) (s : Name) :
    Option (Predictor K) :=
  match look cm s with
  | none => (trained h D ms s).model
  | some c => c.model

/-- The body of the loop of `_simulate`.  A missing column or error term cannot be used in the arithmetic of lines 412-416 (they do not
occur, see C205).  lingam/causal_based_simulator.py:378-419. -/
def simVar (h : Handler K) (D : Defaults K) (ms : List (Name × UserModel K)) (ce : List (Name × Values K)) (cm : List (Name × Changed K))
    (sh : Option (Nat → Nat)) (sim : Name → Option (Col K)) (s : Name) : Except Err (Col K) :=
  match errorOf h D ms ce sh s with
  | .error e => .error e
  | .ok err =>
    if (parentsOf h cm s).isEmpty then
      if s ∈ h.disc then .ok (h.column s)
      else match err with
        | none => .error .type
        | some e => .ok e
    else
      match modelOf h D ms cm s, (parentsOf h cm s).mapM sim with
      | some m, some X =>
        if s ∈ h.disc then .ok (m X)
        else match err with
          | none => .error .type
          | some e => .ok (fun r => m X r + e r)
      | _, _ => .error .type

/-- The loop of `_simulate`, lingam/causal_based_simulator.py:377-421. -/
def simLoop (h : Handler K) (D : Defaults K) (ms : List (Name × UserModel K)) (ce : List (Name × Values K)) (cm : List (Name × Changed K))
    (sh : Option (Nat → Nat)) : List Name → (Name → Option (Col K)) → Except Err (Name → Option (Col K))
  | [], sim => .ok sim
  | s :: ss, sim => match simVar h D ms ce cm sh sim s with
    | .error e => .error e
    | .ok c => simLoop h D ms ce cm sh ss (fun u => if u = s then some c else sim u)

/-- `run`, lingam/causal_based_simulator.py:76-150, 354-421. -/
def run (D : Defaults K) (st : State K) (exog : DictArg (Values K)) (models : DictArg (Info K)) (sh : Option (Nat → Nat)) :
    Except Err (Name → Option (Col K)) :=
  match st with
  | none => .error .attribute
  | some (h, ms) => match checkExog h exog with
    | .error e => .error e
    | .ok ce => match checkChanges h models with
      | .error e => .error e
      | .ok cm => match getOrder h cm with
        | .error e => .error e
        | .ok o => simLoop h D ms ce cm sh o (fun _ => none)

end Verif.SimNames
