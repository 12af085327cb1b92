import Mathlib.Analysis.SpecialFunctions.Exp
import Mathlib.Analysis.SpecialFunctions.Sqrt
import Mathlib.Data.Matrix.Mul
import Mathlib.Data.Matrix.Block
import Mathlib.Algebra.BigOperators.Fin
import Mathlib.Algebra.BigOperators.Intervals

/-!
Model of `lingam/utils/_f_correlation.py` for one-dimensional data, over the reals.  The eigenvalue routines of SciPy
and the order of equal values in `np.argsort` are parameters.  Arrays with positions `0 … n-1` are functions on `Nat`.
Exact arithmetic.
-/
set_option autoImplicit false
namespace Verif.FCorr

open Matrix

/-- `_squared_dist` for two numbers, lingam/utils/_f_correlation.py:81-88. -/
def sqDist (a b : ℝ) : ℝ := |a * a + b * b - 2 * (a * b)|

/-- `np.exp(-0.5 / sigma**2 * dist)`, lingam/utils/_f_correlation.py:114. -/
noncomputable def kern (σ a b : ℝ) : ℝ := Real.exp (-(1 / 2) / σ ^ 2 * sqDist a b)

/-- Local variables of `_incomplete_cholesky`: `P`, `G`, `Gjj`.  lingam/utils/_f_correlation.py:94-97. -/
structure Chol where
  P : Nat → Nat
  G : Nat → Nat → ℝ
  Gjj : Nat → ℝ

/-- `i + np.argmax(Gjj[i:n])`: the first largest, scanning `k` positions from `j` with the best so far `b`.
lingam/utils/_f_correlation.py:102-103. -/
noncomputable def argmaxGo (g : Nat → ℝ) : Nat → Nat → Nat → Nat
  | 0, _, b => b
  | k + 1, j, b => if g b < g j then argmaxGo g k (j + 1) j else argmaxGo g k (j + 1) b

/-- The pivot, lingam/utils/_f_correlation.py:101-107. -/
noncomputable def pivot (n i : Nat) (g : Nat → ℝ) : Nat := if 0 < i then argmaxGo g (n - (i + 1)) (i + 1) i else 0

/-- Exchange of two positions, lingam/utils/_f_correlation.py:104-105. -/
def swapPos (i j a : Nat) : Nat := if a = i then j else if a = j then i else a

/-- The body of the loop, lingam/utils/_f_correlation.py:100-124. -/
noncomputable def cholStep (n : Nat) (x : Nat → ℝ) (σ : ℝ) (i : Nat) (s : Chol) : Chol :=
  let j := pivot n i s.Gjj
  let P := fun a => s.P (swapPos i j a)
  let G0 := fun a k => if k < i then s.G (swapPos i j a) k else 0
  let d := √(s.Gjj j)
  let G := fun a k => if k = i then
      if a = i then d
      else if i < a then 1 / d * (kern σ (x (P a)) (x (P i)) - ∑ l ∈ Finset.range i, G0 a l * G0 i l)
      else 0
    else G0 a k
  ⟨P, G, fun a => if i < a then 1 - ∑ k ∈ Finset.range (i + 1), G a k ^ 2 else s.Gjj a⟩

/-- The loop; `none` if the fuel is used up.  lingam/utils/_f_correlation.py:99-126. -/
noncomputable def cholLoop (n : Nat) (x : Nat → ℝ) (σ tol : ℝ) : Nat → Nat → Chol → Option (Nat × Chol)
  | 0, _, _ => none
  | fuel + 1, i, s =>
    if tol < ∑ j ∈ Finset.Ico i n, s.Gjj j then cholLoop n x σ tol fuel (i + 1) (cholStep n x σ i s) else some (i, s)

/-- `_incomplete_cholesky`: the number of columns and the arrays.  lingam/utils/_f_correlation.py:91-128. -/
noncomputable def incompleteCholesky (n : Nat) (x : Nat → ℝ) (σ tol : ℝ) (fuel : Nat) : Option (Nat × Chol) :=
  cholLoop n x σ tol fuel 0 ⟨fun a => a, fun _ _ => 0, fun _ => 1⟩

/-- Position of `r` in `P`, which is what `np.argsort(P)` has at `r`.  lingam/utils/_f_correlation.py:56. -/
def position (n : Nat) (P : Nat → Nat) (r : Nat) : Nat := ((List.range n).find? (fun a => decide (P a = r))).getD 0

/-- `G[np.argsort(P), :]`, then the column means removed.  lingam/utils/_f_correlation.py:56-57. -/
noncomputable def centredG (n m : Nat) (s : Chol) : Matrix (Fin n) (Fin m) ℝ :=
  fun r k => s.G (position n s.P r) k - (∑ q : Fin n, s.G (position n s.P q) k) / n

/-- The eigenvalue routines: `scipy.linalg.eigh`, `np.argsort` reversed, and `eigsh(…, 1, which="SM")`.
lingam/utils/_f_correlation.py:76, 134, 136-137. -/
structure Routines where
  eigh : (m : Nat) → Matrix (Fin m) (Fin m) ℝ → (Fin m → ℝ) × Matrix (Fin m) (Fin m) ℝ
  descending : (m : Nat) → (Fin m → ℝ) → List (Fin m) → List (Fin m)
  eigsh : (m : Nat) → Matrix (Fin m) (Fin m) ℝ → ℝ

/-- `indexes` of `_svd`, lingam/utils/_f_correlation.py:133-138. -/
noncomputable def indexes (R : Routines) {n m : Nat} (G : Matrix (Fin n) (Fin m) ℝ) (κ : ℝ) : List (Fin m) :=
  let D := (R.eigh m (Gᵀ * G)).1
  R.descending m D ((List.finRange m).filter (fun k => open Classical in decide (n * (κ * (1 / 100)) ≤ D k)))

/-- `U` of `_svd`, lingam/utils/_f_correlation.py:140. -/
noncomputable def svdU (R : Routines) {n m : Nat} (G : Matrix (Fin n) (Fin m) ℝ) (κ : ℝ) :
    Matrix (Fin n) (Fin (indexes R G κ).length) ℝ :=
  fun r a => ∑ k, G r k * ((R.eigh m (Gᵀ * G)).2 k ((indexes R G κ).get a) * √(1 / (R.eigh m (Gᵀ * G)).1 ((indexes R G κ).get a)))

/-- `R` of `_svd`, lingam/utils/_f_correlation.py:141-145. -/
noncomputable def svdR (R : Routines) {n m : Nat} (G : Matrix (Fin n) (Fin m) ℝ) (κ : ℝ) :
    Fin (indexes R G κ).length → ℝ :=
  fun a => (R.eigh m (Gᵀ * G)).1 ((indexes R G κ).get a) / (n * κ / 2 + (R.eigh m (Gᵀ * G)).1 ((indexes R G κ).get a))

/-- `RUUR`, lingam/utils/_f_correlation.py:71. -/
noncomputable def cross {n p q : Nat} (R1 : Fin p → ℝ) (U1 : Matrix (Fin n) (Fin p) ℝ) (R2 : Fin q → ℝ)
    (U2 : Matrix (Fin n) (Fin q) ℝ) : Matrix (Fin q) (Fin p) ℝ :=
  diagonal R2 * (U2ᵀ * U1) * diagonal R1

/-- `R_kappa`, lingam/utils/_f_correlation.py:66-73. -/
def blocks {p q : Nat} (M : Matrix (Fin q) (Fin p) ℝ) : Matrix (Fin (p + q)) (Fin (p + q)) ℝ :=
  reindex finSumFinEquiv finSumFinEquiv (fromBlocks 1 Mᵀ M 1)

/-- Standardised data, lingam/utils/_f_correlation.py:39-40; `none` for NaN. -/
noncomputable def standardize {n : Nat} (x : Fin n → ℝ) : Option (Fin n → ℝ) :=
  let mean := (∑ r, x r) / n
  let std := √((∑ r, (x r - mean) ^ 2) / n)
  if std = 0 then none else some (fun r => (x r - mean) / std)

/-- `kappa, sigma`, lingam/utils/_f_correlation.py:45-48. -/
noncomputable def params (n : Nat) : ℝ × ℝ := if 1000 < n then (2 / 1000, 1 / 2) else (2 / 100, 1)

/-- The centred factor of one variable, lingam/utils/_f_correlation.py:55-57. -/
noncomputable def factor (n : Nat) (z : Fin n → ℝ) : Option (Σ m, Matrix (Fin n) (Fin m) ℝ) :=
  match incompleteCholesky n (fun r => if h : r < n then z ⟨r, h⟩ else 0) (params n).2 (n * (params n).1 * (1 / 100)) (n + 1) with
  | none => none
  | some (m, s) => some ⟨m, centredG n m s⟩

/-- `f_correlation` for two standardised arrays; `none` stands for an exception.  lingam/utils/_f_correlation.py:42-78. -/
noncomputable def fcorrZ (R : Routines) {n : Nat} (z w : Fin n → ℝ) : Option ℝ :=
  match factor n z, factor n w with
  | some ⟨_, G⟩, some ⟨_, L⟩ =>
    let κ := (params n).1
    if (indexes R G κ).length + (indexes R L κ).length = 0 then none
    else some (1 - R.eigsh _ (blocks (cross (svdR R G κ) (svdU R G κ) (svdR R L κ) (svdU R L κ))))
  | _, _ => none

/-- `f_correlation` for two one-dimensional arrays of equal length.  lingam/utils/_f_correlation.py:12-78. -/
noncomputable def fcorr (R : Routines) {n : Nat} (x y : Fin n → ℝ) : Option ℝ :=
  match standardize x, standardize y with
  | some z, some w => fcorrZ R z w
  | _, _ => none

/-! Shapes of arrays with several columns. -/

/-- Shapes of arrays, outermost dimension first.  lingam/utils/_f_correlation.py:31-33. -/
abbrev Shape := List Nat

/-- Broadcasting of an element-wise operation, on reversed shapes; `none` is the exception.
lingam/utils/_f_correlation.py:83-88. -/
def broadcastRev : Shape → Shape → Option Shape
  | [], t => some t
  | s, [] => some s
  | a :: s, b :: t =>
    if a = b ∨ b = 1 then (broadcastRev s t).map (a :: ·)
    else if a = 1 then (broadcastRev s t).map (b :: ·)
    else none

/-- Broadcasting of an element-wise operation, lingam/utils/_f_correlation.py:83-88. -/
def broadcast (s t : Shape) : Option Shape := (broadcastRev s.reverse t.reverse).map List.reverse

/-- Whether a value can be assigned to a selection, on reversed shapes.  lingam/utils/_f_correlation.py:119. -/
def fitsRev : Shape → Shape → Bool
  | _, [] => true
  | [], v => v.all (fun b => decide (b = 1))
  | a :: t, b :: v => (decide (b = a) || decide (b = 1)) && fitsRev t v

/-- `reshape(-1, 1)`, lingam/utils/_f_correlation.py:85-86. -/
def column (s : Shape) : Shape := [s.prod, 1]

/-- `np.tile` with two repetitions, for at most two dimensions.  lingam/utils/_f_correlation.py:86-87. -/
def tile : Shape → Nat → Nat → Shape
  | [], p, q => [p, q]
  | [k], p, q => [p, k * q]
  | a :: k :: l, p, q => a * p :: k * q :: l

/-- Shape of `_squared_dist(x, y)`, lingam/utils/_f_correlation.py:81-88. -/
def sqDistShape (x y : Shape) : Option Shape :=
  match broadcast (column x) y with
  | none => none
  | some xy =>
    let xx := tile (column x) 1 (y.headD 0)
    let yy := tile y (xx.headD 0) 1
    match broadcast xx yy with
    | none => none
    | some s => broadcast s xy

/-- Whether the first column of `G` can be filled for data with `n` rows, each of shape `row`.
lingam/utils/_f_correlation.py:99-119. -/
def firstColumn (n : Nat) (row : Shape) : Bool :=
  match sqDistShape ((n - 1) :: row) (1 :: row) with
  | none => false
  | some K => fitsRev [1, n - 1] K.reverse

end Verif.FCorr
