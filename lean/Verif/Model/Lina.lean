import Mathlib.LinearAlgebra.Matrix.NonsingularInverse
import Mathlib.Algebra.Order.Field.Basic
import Mathlib.Algebra.Order.Ring.Abs

/-!
Model of the parts of `lingam/lina.py` around the optimisers: the factor scores of `LiNA.fit` and `MDLiNA.fit`, the alternating
loop of `MDLiNA.fit`, the passes of `_estimate_MDLiNA_H` and the relabelling of the shared factors.  (The optimisation of the
adjacency matrix is in `Model/Lim`, the losses in `Model/LimLoss`.)  Confirmatory factor analysis (`psy.cfa`), the optimisers and
random numbers are parameters.
-/
set_option autoImplicit false
namespace Verif.Lina

/-- The exceptions: `np.linalg.LinAlgError`, `IndexError`, `ValueError` (shapes), `UnboundLocalError`.
lingam/lina.py:91, 305, 335, 392, 490. -/
inductive Err | linAlg | index | value | unbound
  deriving DecidableEq, Repr

section scores
variable {K : Type} [Field K] [DecidableEq K] {n p q : Nat}

/-- `np.linalg.inv(G.T @ G) @ G.T @ X.T`, transposed (lingam/lina.py:91-92, 294-295). -/
noncomputable def factorScores (G : Matrix (Fin p) (Fin q) K) (X : Matrix (Fin n) (Fin p) K) :
    Except Err (Matrix (Fin n) (Fin q) K) :=
  if (G.transpose * G).det = 0 then .error .linAlg
  else .ok (((G.transpose * G)⁻¹ * G.transpose * X.transpose).transpose)

/-- The array `scale`: its shape and entries (lingam/lina.py:95, 301-303). -/
structure Scale (K : Type) where
  rows : Nat
  cols : Nat
  val : Nat → Nat → K

/-- The loop over the columns, which reads `scale[row j, j]` (lingam/lina.py:93-95, 298-303): the first missing entry raises. -/
def scaleColumns (s : Scale K) (row : Nat → Nat) (F : Matrix (Fin n) (Fin q) K) : Except Err (Matrix (Fin n) (Fin q) K) :=
  if ∀ j : Fin q, row j < s.rows ∧ (j : Nat) < s.cols then .ok (Matrix.of fun r j => F r j * s.val (row j) j)
  else .error .index

/-- The factors on which `LiNA.fit` estimates the graph; `lam` is the result of `cfa` (lingam/lina.py:88-95). -/
noncomputable def linaFactors (lam : Matrix (Fin p) (Fin q) K) (X : Matrix (Fin n) (Fin p) K) (s : Scale K) :
    Except Err (Matrix (Fin n) (Fin q) K) :=
  match factorScores lam X with
  | .error e => .error e
  | .ok F => scaleColumns s (fun _ => 0) F

/-- The factors on which `MDLiNA.fit` estimates: row 0 of `scale` for the first `q1` factors, row 1 for all others
(lingam/lina.py:291-303). -/
noncomputable def mdFactors (q1 : Nat) (lam : Matrix (Fin p) (Fin q) K) (X : Matrix (Fin n) (Fin p) K) (s : Scale K) :
    Except Err (Matrix (Fin n) (Fin q) K) :=
  match factorScores lam X with
  | .error e => .error e
  | .ok F => scaleColumns s (fun j => if j < q1 then 0 else 1) F

end scores

variable {K : Type} [Field K] [LinearOrder K]

/-! ### The alternating loop of `MDLiNA.fit` -/

/-- The smallest of some entries, NaN (`none`) if one is NaN or there is none: `np.min(Likelihood_all[0, a:b])`
(lingam/lina.py:339, 341). -/
def minOf : List (Option K) → Option K
  | [] => none
  | [x] => x
  | x :: y :: l =>
    match x, minOf (y :: l) with
    | some a, some b => some (min a b)
    | _, _ => none

/-- `np.abs(a - b) < 1e-1`, false for NaN (lingam/lina.py:333, 335, 339). -/
def near (a b : Option K) : Bool :=
  match a, b with
  | some x, some y => decide (|x - y| < 1 / 10)
  | _, _ => false

/-- `a <= b`, false for NaN (lingam/lina.py:331, 337, 341). -/
def leNan (a b : Option K) : Bool :=
  match a, b with
  | some x, some y => decide (x ≤ y)
  | _, _ => false

/-- The array `Likelihood_all`: entry 0 is the initial zero (lingam/lina.py:310, 330). -/
def history (L : Nat → Option K) (t : Nat) : Option K := if t = 0 then some 0 else L t

/-- `min_like` after round `t`; `none` at the top level means the initial infinity (lingam/lina.py:309, 331-332). -/
def minLike (L : Nat → Option K) : Nat → Option K
  | 0 => none
  | t + 1 =>
    match minLike L t with
    | none => L (t + 1)
    | some m => if leNan (L (t + 1)) (some m) then L (t + 1) else some m

/-- The conditions that end the loop after round `t` (lingam/lina.py:333-342). -/
def stops (L : Nat → Option K) (t : Nat) : Bool :=
  let recent := minOf ((List.range 19).map (fun k => history L (t - 20 + k)))
  near (history L t) (history L (t - 1)) ||
  (decide (30 ≤ t) && near (L t) (minLike L t)) ||
  (decide (30 ≤ t) && leNan (L t) (minLike L t)) ||
  (decide (50 ≤ t) && near (L t) recent) ||
  (decide (50 ≤ t) && leNan (L t) recent)

/-- The rounds from round `t` on; the value is the round that ends the loop.  Round 10000 writes beyond the array of 10000
entries (lingam/lina.py:310, 312-345). -/
def rounds (L : Nat → Option K) : Nat → Nat → Except Err Nat
  | _, 0 => .error .index
  | t, f + 1 => if 10000 ≤ t then .error .index else if stops L t then .ok t else rounds L (t + 1) f

/-- A `q × q` matrix without a nonzero entry (lingam/lina.py:349). -/
def isZero (q : Nat) (W : Nat → Nat → K) : Bool := (List.range q).all (fun i => (List.range q).all (fun j => decide (W i j = 0)))

/-- The graph that enters the relabelling: `W t` is the estimate of round `t`, `W 0` the initial zero matrix; a zero estimate is
replaced by that of the round before (lingam/lina.py:307, 344, 349-350). -/
def chosen (q : Nat) (L : Nat → Option K) (W : Nat → Nat → Nat → K) : Except Err (Nat → Nat → K) :=
  match rounds L 1 10000 with
  | .error e => .error e
  | .ok t => .ok (if isZero q (W t) then W (t - 1) else W t)

/-! ### `_estimate_MDLiNA_H` -/

/-- The passes of the optimiser (lingam/lina.py:469-488): `sol k` is the solution and score of pass `k`.  The state is
`score_0` (`none` = infinity); the value is the last solution (`h_new`).  The start vectors, which depend on the earlier solutions
and on random numbers, enter only through `sol`; `big k` says whether the accepted solution has an entry above 100. -/
def hPasses {α : Type} (hTol : K) (sol : Nat → α × K) (big : Nat → Bool) : Nat → Nat → Option K → Option α → Option α
  | 0, _, _, last => last
  | m + 1, k, score0, _ =>
    let s := (sol k).2
    let h := some (sol k).1
    let close := match score0 with
      | none => false
      | some s0 => decide (|s0 - s| < hTol)
    if close then h
    else
      let better := match score0 with
        | none => decide (0 < s)
        | some s0 => decide (0 < s ∧ s < s0)
      if better then hPasses hTol sol big m (k + 1) (if big k then none else some s) h
      else hPasses hTol sol big m (k + 1) score0 h

/-- lingam/lina.py:410-494 with the threshold; without a pass `h_new` is unbound (line 490). -/
def estimateH (wThr hTol : K) (maxIter : Nat) (sol : Nat → (Nat → Nat → K) × K) (big : Nat → Bool) : Except Err (Nat → Nat → K) :=
  match hPasses hTol sol big maxIter 0 none none with
  | none => .error .unbound
  | some H => .ok (fun i j => if |H i j| < wThr then 0 else H i j)

/-! ### Relabelling the shared factors -/

/-- `BB[j, i]`: the weights of shared factor `i` on factor `j` of the first and of the second domain (lingam/lina.py:360-363). -/
def weights (q : Nat) (H : Nat → Nat → K) (r c : Nat) : K := |(|H r c|)| + |(|H (r + q) c|)|

/-- `len(np.where(BB == 0))` is the number of axes, never 0, so 0.01 is added to the columns with a zero
(lingam/lina.py:365, 371-373). -/
def liftColumns (q : Nat) (B : Nat → Nat → K) (r c : Nat) : K :=
  if (List.range q).any (fun k => decide (B k c = 0)) then B r c + 1 / 100 else B r c

/-- The positions in the order of `np.where` (lingam/lina.py:375). -/
def cells (q : Nat) : List (Nat × Nat) := (List.range q).flatMap (fun r => (List.range q).map (fun c => (r, c)))

/-- The first position of the largest entry (lingam/lina.py:375-383; with a single one both branches do the same). -/
def firstMax (B : Nat → Nat → K) : List (Nat × Nat) → Option (Nat × Nat)
  | [] => none
  | x :: l =>
    match firstMax B l with
    | none => some x
    | some y => if B y.1 y.2 ≤ B x.1 x.2 then some x else some y

/-- `k` steps of the assignment: `order[0, col] = row`, then row and column are set to zero (lingam/lina.py:374-384). -/
def assign (q : Nat) : Nat → (Nat → Nat → K) → (Nat → Nat) → (Nat → Nat)
  | 0, _, order => order
  | k + 1, B, order =>
    match firstMax B (cells q) with
    | none => order
    | some (r, c) => assign q k (fun i j => if i = r ∨ j = c then 0 else B i j) (fun j => if j = c then r else order j)

/-- `np.where(order == i)[1]` (lingam/lina.py:389, 392). -/
def preimages (q : Nat) (order : Nat → Nat) (i : Nat) : List Nat := (List.range q).filter (fun c => order c == i)

/-- Rows, then columns (lingam/lina.py:386-393); unless exactly one factor has the number `i`, the assignment of shapes fails. -/
def relabel (q : Nat) (order : Nat → Nat) (W : Nat → Nat → K) : Except Err (Nat → Nat → K) :=
  if (List.range q).all (fun i => (preimages q order i).length == 1) then
    let at' := fun i => (preimages q order i).headD 0
    let W0 := fun i j => W (at' i) j
    .ok (fun i j => W0 i (at' j))
  else .error .value

/-- lingam/lina.py:352-397: the reported graph from `H_est` (with `hRows` rows) and the chosen `W`. -/
def reported (q hRows : Nat) (H W : Nat → Nat → K) : Except Err (Nat → Nat → K) :=
  if 0 < q ∧ hRows < 2 * q then .error .index
  else relabel q (assign q q (liftColumns q (weights q H)) (fun _ => 0)) W

end Verif.Lina
