import Mathlib.Algebra.Field.Rat
import Mathlib.Algebra.Order.Ring.Rat

/-! Vocabulary for arguments of constructors and lists of data sets.  Nothing here refers to the model of the code. -/
set_option autoImplicit false
namespace Verif

/-- A floating point number as seen by comparisons: rounding does not matter for them. -/
inductive Num
  | nan
  | negInf
  | fin (q : ℚ)
  | posInf
deriving DecidableEq

/-- The number is at least zero. -/
def Num.NonNeg : Num → Prop
  | .nan => False
  | .negInf => False
  | .fin q => 0 ≤ q
  | .posInf => True

/-- The number is greater than zero. -/
def Num.Pos : Num → Prop
  | .nan => False
  | .negInf => False
  | .fin q => 0 < q
  | .posInf => True

/-- `ys` are the valid versions of all items of `xs`, in order, and all have the same value of `key` (number of columns, shape). -/
def SameKind {R A E κ : Type} (valid : R → Except E A) (key : A → κ) (xs : List R) (ys : List A) : Prop :=
  xs.map valid = ys.map .ok ∧ ∀ a ∈ ys, ∀ b ∈ ys, key a = key b

end Verif
