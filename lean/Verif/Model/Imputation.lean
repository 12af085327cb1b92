import Mathlib.Data.List.Sort
import Mathlib.Data.List.Dedup
import Mathlib.Algebra.Order.Field.Basic
import Mathlib.Data.Int.Order.Basic

/-!
Model of `lingam/tools/__init__.py` (`bootstrap_with_imputation`).

A matrix is a function of row and column, `none` = NaN.  The random resampling, the imputer and the causal discovery
model are oracles that may depend on the repetition and on the data they are given.  Type checks of the arguments
(lines 83-112) and the final conversion to arrays (lines 156-159) are not modelled.
-/
set_option autoImplicit false
namespace Verif.Imputation

variable {K : Type} [Field K]

/-- lingam/tools/__init__.py:86, 108: A data matrix with missing values. -/
abbrev Data (K : Type) := Nat → Nat → Option K

/-- lingam/tools/__init__.py:196-207: What an imputer returns: `reps` matrices of the given shape. -/
structure Imputed (K : Type) where
  reps : Nat
  rows : Nat
  cols : Nat
  val : Nat → Data K

/-- lingam/tools/__init__.py:260-285: What a causal discovery model returns: an order and an array of matrices with
its shape. -/
structure Discovery (K : Type) where
  order : List Int
  shape : List Nat
  mats : List (Nat → Nat → K)

/-- lingam/tools/__init__.py:200, 203: `ValueError` raised for a bad imputer (200, 203) or a bad causal discovery result
(262-283). -/
inductive Err | imputer | discovery
deriving DecidableEq

/-- `_check_imputer_outout`: no NaN, at least one repetition, and the shape of the sample.
lingam/tools/__init__.py:196-207 (`check_array` refuses NaN and empty input). -/
def imputerOk (N n : Nat) (o : Imputed K) : Prop :=
  0 < o.reps ∧ o.rows = N ∧ o.cols = n ∧ ∀ k, k < o.reps → ∀ r, r < N → ∀ c, c < n → (o.val k r c).isSome = true

/-- lingam/tools/__init__.py:196-207, decidability. -/
instance (N n : Nat) (o : Imputed K) : Decidable (imputerOk N n o) := by unfold imputerOk; infer_instance

/-- lingam/tools/__init__.py:274: `np.unique` of a list: sorted without duplicates.  Used at line 274. -/
def unique (l : List Int) : List Int := l.dedup.insertionSort (fun a b => a ≤ b)

/-- `_check_cd_output`: length, `np.unique(order) == np.arange(len)`, last two dimensions.
lingam/tools/__init__.py:260-285.  The argument `n_repeats` is not used by the code. -/
def discoveryOk (_nRepeats n : Nat) (d : Discovery K) : Bool :=
  decide (d.order.length = n) && decide (unique d.order = (List.range d.order.length).map (fun i : Nat => (i : Int))) &&
    decide (d.shape.drop (d.shape.length - 2) = [n, n])

/-- One entry of the result.  lingam/tools/__init__.py:151-154. -/
structure Sample (K : Type) where
  order : List Int
  shape : List Nat
  mats : List (Nat → Nat → K)
  index : Nat → Nat
  reps : Nat
  imputed : Nat → Data K

/-- The rows of the bootstrap sample.  lingam/tools/__init__.py:133-134. -/
def rowsOf (X : Data K) (idx : Nat → Nat) : Data K := fun r c => X (idx r) c

/-- The recorded imputations: imputed values where the sample is missing, NaN elsewhere.
lingam/tools/__init__.py:146-159. -/
def record (S : Data K) (o : Imputed K) : Nat → Data K := fun k r c => if (S r c).isNone then o.val k r c else none

/-- One repetition.  lingam/tools/__init__.py:131-159. -/
def step (X : Data K) (N n : Nat) (idx : Nat → Nat) (imp : Data K → Imputed K) (cd : Imputed K → Discovery K) :
    Except Err (Sample K) :=
  let S := rowsOf X idx
  let o := imp S
  if imputerOk N n o then
    let d := cd o
    if discoveryOk o.reps n d then Except.ok ⟨d.order, d.shape, d.mats, idx, o.reps, record S o⟩
    else Except.error Err.discovery
  else Except.error Err.imputer

/-- `bootstrap_with_imputation`: all repetitions, or the first error.  `idx i`, `imp i`, `cd i` are the resampling,
the
imputer and the model in repetition `i`.  lingam/tools/__init__.py:22-165. -/
def bootstrap (X : Data K) (N n : Nat) (idx : Nat → Nat → Nat) (imp : Nat → Data K → Imputed K)
    (cd : Nat → Imputed K → Discovery K) (m : Nat) : Except Err (List (Sample K)) :=
  (List.range m).mapM (fun i => step X N n (idx i) (imp i) (cd i))

/-- The columns `IterativeImputer` keeps: those with an observed value (its default drops empty features).
Used by lingam/tools/__init__.py:291-301. -/
def observed (S : Data K) (N n : Nat) : List Nat :=
  (List.range n).filter (fun c => (List.range N).any (fun r => (S r c).isSome))

/-- `_DefaultMultipleImputation.fit_transform` with an arbitrary fill-in `fill k r c`; observed values are kept and
empty columns dropped.  lingam/tools/__init__.py:288-301. -/
def defaultImputer (reps N n : Nat) (fill : Nat → Nat → Nat → K) (S : Data K) : Imputed K :=
  ⟨reps, N, (observed S N n).length, fun k r c =>
    match (observed S N n)[c]? with
    | none => none
    | some c' => some ((S r c').getD (fill k r c'))⟩

end Verif.Imputation
