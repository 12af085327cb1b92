import Verif.Model.CausalEffect

/-!
Model of the `CausalEffect` object (`/repo/lingam/causal_effect.py`) over several calls: what `_check_init_params` keeps from the
causal model that was passed to the constructor.  The causal model is an object of the caller and may change between the calls.
-/
set_option autoImplicit false
namespace Verif.Effect

variable {K : Type} [Field K] [LinearOrder K]

/-- The argument `causal_model` in its present state, lingam/causal_effect.py:21-34: a LiNGAM object with its results (`none` before
`fit`), an array or a list of lists with its shape, or something else. -/
inductive Source (K : Type)
  | lingam (fitted : Option (List Nat × (Nat → Nat → K)))
  | array (shape : List Nat) (B : Nat → Nat → K)
  | list (shape : List Nat) (B : Nat → Nat → K)
  | other

/-- `_B` and `_causal_order`, lingam/causal_effect.py:35-36.  The matrix is `none` when `_B` is the array of the caller itself
(line 49), so that its entries are those of the array at the time they are read. -/
structure Kept (K : Type) where
  matrix : Option (Nat → Nat → K)
  order : List Nat

/-- The exceptions: the `ValueError`s of lingam/causal_effect.py:54-56, 65, 79, and the `TypeError` of `np.dot(None, Ex)` (162, 223)
for a model that was not fitted. -/
inductive CallErr | value | type
  deriving DecidableEq

/-- Lines 47-76: a matrix of the given shape is checked and ordered. -/
def admit (shape : List Nat) (B : Nat → Nat → K) (matrix : Option (Nat → Nat → K)) : Except CallErr (Kept K) :=
  match shape with
  | [n, m] =>
    if n ≠ m then .error .value
    else match causalOrder n B with
      | none => .error .value
      | some order => .ok ⟨matrix, order⟩
  | _ => .error .value

/-- `_check_init_params`, lingam/causal_effect.py:38-79.  An unfitted model leaves `_B` at `None`; the next statement raises. -/
def checkInit (src : Source K) (kept : Option (Kept K)) : Except CallErr (Kept K) :=
  match kept with
  | some k => .ok k
  | none => match src with
    | .lingam none => .error .type
    | .lingam (some m) => .ok ⟨some m.2, m.1⟩
    | .array shape B => admit shape B none
    | .list shape B => admit shape B (some B)
    | .other => .error .value

/-- The matrix and the order used in a call, lingam/causal_effect.py:97-103, 162, 223. -/
def used (src : Source K) (k : Kept K) : (Nat → Nat → K) × List Nat :=
  (match k.matrix, src with
    | some B, _ => B
    | none, .array _ B => B
    | none, _ => fun _ _ => 0, k.order)

/-- A sequence of calls: `srcs` are the states of the causal model at the calls, `f` the estimation (lines 158-181 or 209-252) as a
function of the matrix and the order.  The results in turn; an exception leaves the object as it was. -/
def calls {R : Type} (f : (Nat → Nat → K) → List Nat → R) : List (Source K) → Option (Kept K) → List (Except CallErr R)
  | [], _ => []
  | src :: srcs, kept =>
    match checkInit src kept with
    | .error e => .error e :: calls f srcs kept
    | .ok k => .ok (f (used src k).1 (used src k).2) :: calls f srcs (some k)

end Verif.Effect
