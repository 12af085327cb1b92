import Mathlib.Data.List.Sort
import Mathlib.Algebra.Order.Field.Basic
import Mathlib.Algebra.Order.Ring.Abs

/-!
Model of `lingam/utils/_visualize_nonlinear_causal_effect.py`.  The data frame has numeric columns (`pd.get_dummies` then changes
nothing) and integer labels; a row is a function from column number to value.  The regression model is a parameter: what it predicts
for a row, as a function of the data it was trained on.  Entries of adjacency matrices are `none` for NaN.  Axes, colours and labels of
the figure are left out; what remains are the lines drawn.
-/
set_option autoImplicit false
namespace Verif.VisualEffect

variable {K C : Type} [Field K] [LinearOrder K] [DecidableEq C]

/-- The exceptions raised (lingam/utils/_visualize_nonlinear_causal_effect.py:58-99, 162-164, 204-206). -/
inductive Err | type | value | index | attribute | key
  deriving DecidableEq, Repr

/-- A data frame: rows, labels of the rows, names of the columns (lingam/utils/_visualize_nonlinear_causal_effect.py:28, 104-105). -/
structure Frame (K : Type) where
  rows : List (Nat → K)
  index : List Int
  columns : List String

/-- The argument `cd_result` (lingam/utils/_visualize_nonlinear_causal_effect.py:30, 113-124): an array or nested list of the given
shape, or a bootstrap result with its matrices and optional row numbers. -/
inductive CdResult (K : Type)
  | matrix (isArray : Bool) (rows cols : Nat) (m : Nat → Nat → Option K)
  | boot (ms : List (Nat → Nat → Option K)) (idx : Option (List (List Int)))

/-- Lines 154-166 and 61-66: `check_array` rejects NaN, a nested list has no `shape`, a wrong shape is a TypeError.
lingam/utils/_visualize_nonlinear_causal_effect.py:61-66, 154-166. -/
def checkResult (n : Nat) : CdResult K → Except Err Unit
  | .boot _ _ => .ok ()
  | .matrix isArray r c m =>
    if (List.range r).any (fun i => (List.range c).any (fun j => (m i j).isNone)) then .error .value
    else if !isArray then .error .attribute
    else if r ≠ n ∨ c ≠ n then .error .type
    else .ok ()

/-- The argument `percentile` (lingam/utils/_visualize_nonlinear_causal_effect.py:84-90, 109-110). -/
inductive Pct (K : Type)
  | default
  | tuple (l : List K)
  | list (l : List K)

/-- Lines 84-90 and 109-110: only lists are accepted.  lingam/utils/_visualize_nonlinear_causal_effect.py:84-90, 109-110. -/
def checkPct : Pct K → Except Err (List K)
  | .default => .ok [95, 50, 5]
  | .tuple _ => .error .type
  | .list l =>
    if l.length ≠ 3 then .error .type
    else if l.all (fun x => decide (0 ≤ x) && decide (x ≤ 100)) then .ok l
    else .error .type

/-- `X.iloc[positions]`: negative positions count from the end, others outside raise
(lingam/utils/_visualize_nonlinear_causal_effect.py:210-211, 217). -/
def iloc (rows : List (Nat → K)) : List Int → Except Err (List (Nat → K))
  | [] => .ok []
  | i :: l =>
    let p := if i < 0 then i + rows.length else i
    if 0 ≤ p then
      match rows[p.toNat]? with
      | none => .error .index
      | some r =>
        match iloc rows l with
        | .error e => .error e
        | .ok rs => .ok (r :: rs)
    else .error .index

/-- `np.where(m[cause_index, :] == 1)[0]` (lingam/utils/_visualize_nonlinear_causal_effect.py:204). -/
def covariates (n : Nat) (m : Nat → Nat → Option K) (cause : Nat) : List Nat :=
  (List.range n).filter (fun j => decide (m cause j = some 1))

/-- The explanatory columns: cause and covariates, sorted, without the effect
(lingam/utils/_visualize_nonlinear_causal_effect.py:205-209; line 205 compares a list with a number and removes nothing). -/
def explanatory (n : Nat) (m : Nat → Nat → Option K) (cause effect : Nat) : List Nat :=
  ((cause :: covariates n m cause).insertionSort (· ≤ ·)).filter (fun j => j ≠ effect)

/-- A trained model: its classes (one dummy class for regressors) and its prediction for a row of explanatory values
(lingam/utils/_visualize_nonlinear_causal_effect.py:212, 221-231). -/
structure Fitted (K C : Type) where
  classes : List C
  predict : List K → C → K

/-- `estimator.fit(X_exp, X_obj)` (lingam/utils/_visualize_nonlinear_causal_effect.py:210-212). -/
abbrev Estimator (K C : Type) := List (List K) → List K → Fitted K C

/-- The mean prediction with the cause set to `v` in every row (lingam/utils/_visualize_nonlinear_causal_effect.py:215-231). -/
def effectAt (F : Fitted K C) (rows : List (Nat → K)) (exp : List Nat) (cause : Nat) (v : K) (c : C) : K :=
  (rows.map (fun r => F.predict (exp.map (fun k => if k = cause then v else r k)) c)).sum / (rows.length : K)

/-- The trained model for one matrix (lingam/utils/_visualize_nonlinear_causal_effect.py:203-212). -/
def train (est : Estimator K C) (n : Nat) (rows : List (Nat → K)) (m : Nat → Nat → Option K) (cause effect : Nat) : Fitted K C :=
  est (rows.map (fun r => (explanatory n m cause effect).map r)) (rows.map (fun r => r effect))

/-- The dictionary `effect_info`: class, position, list of values (lingam/utils/_visualize_nonlinear_causal_effect.py:198-200). -/
abbrev Info (K C : Type) := C → K → List K

/-- `effect_info[c][v].append(x)` (lingam/utils/_visualize_nonlinear_causal_effect.py:225, 231). -/
def push (info : Info K C) (c : C) (v x : K) : Info K C :=
  fun c' v' => if c' = c ∧ v' = v then info c' v' ++ [x] else info c' v'

/-- One matrix with its rows: all positions, all classes of the trained model
(lingam/utils/_visualize_nonlinear_causal_effect.py:202-231); a class the dictionary does not have raises KeyError. -/
def addSample (est : Estimator K C) (n : Nat) (classes : List C) (positions : List K) (cause effect : Nat)
    (rows : List (Nat → K)) (m : Nat → Nat → Option K) (info : Info K C) : Except Err (Info K C) :=
  let F := train est n rows m cause effect
  if F.classes.all (fun c => decide (c ∈ classes)) then
    .ok (positions.foldl (fun info v =>
      F.classes.foldl (fun info c => push info c v (effectAt F rows (explanatory n m cause effect) cause v c)) info) info)
  else .error .key

/-- The loop over the matrices and their rows (lingam/utils/_visualize_nonlinear_causal_effect.py:202). -/
def addSamples (est : Estimator K C) (n : Nat) (all : List (Nat → K)) (classes : List C) (positions : List K) (cause effect : Nat) :
    List ((Nat → Nat → Option K) × List Int) → Info K C → Except Err (Info K C)
  | [], info => .ok info
  | (m, idx) :: l, info =>
    match iloc all idx with
    | .error e => .error e
    | .ok rows =>
      match addSample est n classes positions cause effect rows m info with
      | .error e => .error e
      | .ok info' => addSamples est n all classes positions cause effect l info'

/-- The matrices with their rows (lingam/utils/_visualize_nonlinear_causal_effect.py:113-124, 202). -/
def samples (X : Frame K) : CdResult K → List ((Nat → Nat → Option K) × List Int)
  | .matrix _ _ _ m => [(m, X.index)]
  | .boot ms none => ms.zip [X.index]
  | .boot ms (some idx) => ms.zip idx

/-- Keys of a dictionary built from a list: first occurrences (lingam/utils/_visualize_nonlinear_causal_effect.py:200, 261). -/
def keys : List K → List K
  | [] => []
  | x :: l => x :: (keys l).filter (fun y => y ≠ x)

/-- The line of percentile `p`; `pct` is `np.percentile` (lingam/utils/_visualize_nonlinear_causal_effect.py:261-277). -/
def line (pct : List K → K → K) (effects : K → List K) (positions percentile : List K) (p : K) : List K :=
  (keys positions).flatMap (fun v => (percentile.filter (fun x => x = p)).map (fun x => pct (effects v) x))

/-- `ax.plot(cause_positions, values)` for every percentile: different lengths raise ValueError
(lingam/utils/_visualize_nonlinear_causal_effect.py:287-289). -/
def draw (pct : List K → K → K) (effects : K → List K) (positions percentile : List K) : Except Err (List (K × List K)) :=
  if (keys percentile).all (fun p => (line pct effects positions percentile p).length == positions.length) then
    .ok ((keys percentile).map (fun p => (p, line pct effects positions percentile p)))
  else .error .value

/-- `disable_percentile` (lingam/utils/_visualize_nonlinear_causal_effect.py:119, 123, 246-252). -/
def drawnPct (percentile : List K) : CdResult K → List K
  | .matrix _ _ _ _ => [50]
  | .boot _ _ => percentile

/-- `effect_info` for valid arguments (lingam/utils/_visualize_nonlinear_causal_effect.py:58-137). -/
def effectInfo (est : Estimator K C) (X : Frame K) (cd : CdResult K) (causeName effectName : String) (classes : List C)
    (positions : List K) (pctArg : Pct K) : Except Err (Info K C) :=
  match checkResult X.columns.length cd with
  | .error e => .error e
  | .ok _ =>
    if causeName ∉ X.columns then .error .value
    else if effectName ∉ X.columns then .error .value
    else
      match checkPct pctArg with
      | .error e => .error e
      | .ok _ =>
        addSamples est X.columns.length X.rows classes positions (X.columns.idxOf causeName) (X.columns.idxOf effectName) (samples X cd)
          (fun _ _ => [])

/-- The panels of the figure, one for each class (lingam/utils/_visualize_nonlinear_causal_effect.py:139-151, 258-290). -/
def visualize (pct : List K → K → K) (est : Estimator K C) (X : Frame K) (cd : CdResult K) (causeName effectName : String)
    (classes : List C) (positions : List K) (pctArg : Pct K) : Except Err (List (List (K × List K))) :=
  match effectInfo est X cd causeName effectName classes positions pctArg, checkPct pctArg with
  | .ok info, .ok percentile => classes.mapM (fun c => draw pct (info c) positions (drawnPct percentile cd))
  | .error e, _ => .error e
  | _, .error e => .error e

end Verif.VisualEffect
