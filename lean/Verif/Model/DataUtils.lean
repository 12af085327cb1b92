import Mathlib.Algebra.Order.Field.Rat
import Mathlib.Algebra.Order.Floor.Defs
import Mathlib.Algebra.BigOperators.Fin
import Mathlib.Data.Rat.Floor

/-!
Model of `remove_effect` and of the model description of `evaluate_model_fit` (`/repo/lingam/utils/__init__.py`).
-/
set_option autoImplicit false
namespace Verif.DataUtils

variable {N : Nat}

/-- The element type of the data array after `check_array`: numeric arrays keep their type.
lingam/utils/__init__.py:209. -/
inductive DType | float | int
deriving DecidableEq, Repr

/-- Assignment into a numpy array: an integer array truncates towards zero.  lingam/utils/__init__.py:215. -/
def store (t : DType) (x : ℚ) : ℚ :=
  match t with
  | .float => x
  | .int => if 0 ≤ x then ((⌊x⌋ : ℤ) : ℚ) else ((⌈x⌉ : ℤ) : ℚ)

/-- `LinearRegression().fit(columns, y)`: coefficients by position, and the intercept.
lingam/utils/__init__.py:213-214. -/
abbrev Fit (N : Nat) := List (Fin N → ℚ) → (Fin N → ℚ) → List ℚ × ℚ

/-- `reg.predict(columns)`, lingam/utils/__init__.py:215. -/
def predict (m : List ℚ × ℚ) (cols : List (Fin N → ℚ)) (r : Fin N) : ℚ :=
  m.2 + ((m.1.zip cols).map (fun p => p.1 * p.2 r)).sum

/-- The loop body: one remaining feature.  lingam/utils/__init__.py:212-216. -/
def removeStep (fit : Fit N) (t : DType) (S : List Nat) (s : (Nat → Fin N → ℚ) × (Nat → List ℚ)) (f : Nat) :
    (Nat → Fin N → ℚ) × (Nat → List ℚ) :=
  let m := fit (S.map s.1) (s.1 f)
  (fun j => if j = f then fun r => store t (s.1 f r - predict m (S.map s.1) r) else s.1 j,
   fun j => if j = f then m.1 else s.2 j)

/-- lingam/utils/__init__.py:185-219 `remove_effect`; `none` is the exception of the regression for an empty list of
features (if anything remains).  Indices are nonnegative and in range. -/
def removeEffect (fit : Fit N) (t : DType) (n : Nat) (S : List Nat) (X : Nat → Fin N → ℚ) :
    Option ((Nat → Fin N → ℚ) × (Nat → List ℚ)) :=
  let rest := (List.range n).filter (fun i => decide (i ∉ S))
  if S = [] ∧ rest ≠ [] then none
  else some (rest.foldl (removeStep fit t S) (X, fun _ => []))

/-! ### The model description -/

/-- `np.isclose(elem, 0)`, lingam/utils/__init__.py:978, 989. -/
def isclose0 (x : ℚ) : Bool := decide (|x| ≤ 1 / 100000000)

/-- One summand on the right of an equation, lingam/utils/__init__.py:983-990. -/
inductive Term
  /-- `{elem:f} * x{j}` -/
  | fixed (c : ℚ) (j : Nat)
  /-- `eta_{i}_{j}` with the smaller index first -/
  | latent (i j : Nat)
deriving DecidableEq, Repr

/-- The description handed to semopy, lingam/utils/__init__.py:973-1002. -/
structure Desc where
  equations : List (Nat × List Term)
  latents : List (Nat × Nat)
  ordinals : List Nat
deriving DecidableEq, Repr

/-- A row without NaN whose entries are all close to zero, lingam/utils/__init__.py:977-979. -/
def exogenous (n : Nat) (row : Nat → Option ℚ) : Bool :=
  (List.range n).all (fun j => match row j with | none => false | some x => isclose0 x)

/-- The summand of one entry; `rnd` is the rounding of the format `f` (six decimals).
lingam/utils/__init__.py:983-990. -/
def term (rnd : ℚ → ℚ) (i j : Nat) (e : Option ℚ) : Option Term :=
  match e with
  | none => some (if i < j then .latent i j else .latent j i)
  | some x => if isclose0 x then none else some (.fixed (rnd x) j)

/-- The right-hand side of one equation, lingam/utils/__init__.py:983-991. -/
def terms (rnd : ℚ → ℚ) (n i : Nat) (row : Nat → Option ℚ) : List Term :=
  (List.range n).filterMap (fun j => term rnd i j (row j))

/-- `if eta_name not in eta_names: eta_names.append(eta_name)`, lingam/utils/__init__.py:987-988. -/
def addLatent (names : List (Nat × Nat)) (t : Term) : List (Nat × Nat) :=
  match t with
  | .fixed _ _ => names
  | .latent i j => if (i, j) ∈ names then names else names ++ [(i, j)]

/-- Building the description, lingam/utils/__init__.py:973-1002. -/
def describe (rnd : ℚ → ℚ) (n : Nat) (A : Nat → Nat → Option ℚ) (ordinal : Nat → Int) : Desc :=
  let eqs := ((List.range n).filter (fun i => !exogenous n (A i))).map (fun i => (i, terms rnd n i (A i)))
  { equations := eqs
    latents := (eqs.flatMap (·.2)).foldl addLatent []
    ordinals := if 0 < ((List.range n).map ordinal).sum then (List.range n).filter (fun i => decide (ordinal i ≠ 0)) else [] }

end Verif.DataUtils
