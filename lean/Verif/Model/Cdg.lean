import Mathlib.Algebra.Order.Field.Basic

/-!
Model of `lingam/experimental/cdg.py` (`CausalDataGenerator`).

A data frame is a list of column names with a column for every name; a column gives a value for every row, `none`
is NaN.  Categorical values are represented by elements of `K` (labels).  Estimators are oracles: a fitted model is
a function from the list of input columns to the column of predictions; for a classifier it gives the labels drawn
from the predicted probabilities, so it stands for the random state too.  Row indices are in `Model/CdgRows`, the checks of
estimators (lines 277-295) in `Model/CdgModels`; the length check of the interventions (line 347) is not modelled.
-/
set_option autoImplicit false
namespace Verif.Cdg

variable {K : Type} [Field K]

/-- lingam/experimental/cdg.py:40-131: A column; `none` is NaN. -/
abbrev Col (K : Type) := Nat → Option K

/-- lingam/experimental/cdg.py:297-329: A fitted estimator: input columns to predictions. -/
abbrev Predictor (K : Type) := List (Col K) → Col K

/-- A replacement model passed to `generate`: input columns and the error column to values.
lingam/experimental/cdg.py:203-211, 239-247. -/
abbrev UserModel (K : Type) := List (Col K) → Col K → Col K

/-- Exceptions raised by the class: `ValueError` (lingam/experimental/cdg.py:82-86, 342-345), `KeyError` of pandas for a missing column
(97, 104, 268), `AttributeError` for `None.predict` (209, 212). -/
inductive Err | valueError | keyError | attributeError
deriving DecidableEq

/-- lingam/experimental/cdg.py:76-131: The data passed to `fit`: column names, values, and which columns have dtype
"category". -/
structure Frame (K : Type) where
  cols : List Nat
  data : Nat → Col K
  cat : Nat → Bool

/-- The state of a fitted generator, lingam/experimental/cdg.py:119-129. -/
structure Fitted (K : Type) where
  X : Frame K
  cause : Nat
  effect : Nat
  adj : List Nat
  modelC : Option (Predictor K)
  modelE : Predictor K
  errC : Col K
  errE : Col K

/-- Elementwise difference; NaN propagates.  numpy, used in lingam/experimental/cdg.py:326. -/
def csub (a b : Col K) : Col K := fun r => (a r).bind (fun x => (b r).map (fun y => x - y))

/-- Elementwise sum; NaN propagates.  numpy, used in lingam/experimental/cdg.py:219 and 257. -/
def cadd (a b : Col K) : Col K := fun r => (a r).bind (fun x => (b r).map (fun y => x + y))

/-- The residuals of a model: NaN for a categorical target.  lingam/experimental/cdg.py:323-327 (`_make_model`). -/
def resid (cat : Bool) (y pred : Col K) : Col K := if cat then fun _ => none else csub y pred

/-- `fit`.  `fitC` and `fitE` are the estimators after `.fit(inputs, target)`.  lingam/experimental/cdg.py:40-131. -/
def fit (fitC fitE : List (Col K) → Col K → Predictor K) (X : Frame K) (cause effect : Nat) (adj : List Nat) :
    Except Err (Fitted K) :=
  if cause ∉ X.cols then Except.error Err.valueError
  else if effect ∉ X.cols then Except.error Err.valueError
  else if ∃ a ∈ adj, a ∉ X.cols then Except.error Err.keyError
  else
    let zs := adj.map X.data
    let xs := X.data cause :: zs
    let mE := fitE xs (X.data effect)
    let eE := resid (X.cat effect) (X.data effect) (mE xs)
    if adj = [] then Except.ok ⟨X, cause, effect, adj, none, mE, X.data cause, eE⟩
    else
      let mC := fitC zs (X.data cause)
      Except.ok ⟨X, cause, effect, adj, some mC, mE, resid (X.cat cause) (X.data cause) (mC zs), eE⟩

/-- The names that may be intervened on.  lingam/experimental/cdg.py:342. -/
def Fitted.names (f : Fitted K) : List Nat := f.cause :: f.effect :: f.adj

/-- lingam/experimental/cdg.py:188-260: Dictionary lookup. -/
def look {A : Type} (d : List (Nat × A)) (v : Nat) : Option A := (d.find? (fun e => e.1 == v)).map (fun e => e.2)

/-- lingam/experimental/cdg.py:188-275: Assignment of one column. -/
def setCol (g : Nat → Col K) (v : Nat) (c : Col K) : Nat → Col K := fun w => if w = v then c else g w

/-- The working frame before the models are evaluated: adjustments keep their data, cause and effect hold the
errors, then the exogenous interventions are written.  lingam/experimental/cdg.py:188-197. -/
def start (f : Fitted K) (exog : List (Nat × Col K)) : Nat → Col K :=
  exog.foldl (fun g e => setCol g e.1 e.2) (setCol (setCol f.X.data f.cause f.errC) f.effect f.errE)

/-- The new column of the cause.  lingam/experimental/cdg.py:199-233. -/
def genCause (f : Fitted K) (endog : List (Nat × Col K)) (um : Option (UserModel K)) (g : Nat → Col K) :
    Except Err (Col K) :=
  match look endog f.cause with
  | some c => Except.ok c
  | none =>
    match um with
    | some m => Except.ok (m (f.adj.map g) (g f.cause))
    | none =>
      match f.modelC with
      | none => Except.error Err.attributeError
      | some m => Except.ok (if f.X.cat f.cause then m (f.adj.map g) else cadd (g f.cause) (m (f.adj.map g)))

/-- The new column of the effect.  lingam/experimental/cdg.py:235-271. -/
def genEffect (f : Fitted K) (endog : List (Nat × Col K)) (um : Option (UserModel K)) (g : Nat → Col K) : Col K :=
  match look endog f.effect with
  | some c => c
  | none =>
    match um with
    | some m => m (g f.cause :: f.adj.map g) (g f.effect)
    | none => if f.X.cat f.effect then f.modelE (g f.cause :: f.adj.map g)
        else cadd (g f.effect) (f.modelE (g f.cause :: f.adj.map g))

/-- `generate`.  The last step selects all columns of the training data, line 273.  lingam/experimental/cdg.py:133-275. -/
def generate (f : Fitted K) (endog exog : List (Nat × Col K)) (umC umE : Option (UserModel K)) :
    Except Err (Nat → Col K) :=
  if ∃ e ∈ endog ++ exog, e.1 ∉ f.names then Except.error Err.valueError
  else
    match genCause f endog umC (start f exog) with
    | Except.error e => Except.error e
    | Except.ok c =>
      let g := setCol (start f exog) f.cause c
      let g' := setCol g f.effect (genEffect f endog umE g)
      if ∃ v ∈ f.X.cols, v ∉ f.names then Except.error Err.keyError else Except.ok g'

end Verif.Cdg
