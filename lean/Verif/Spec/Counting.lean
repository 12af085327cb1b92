import Mathlib.Algebra.Order.Field.Rat
import Mathlib.Algebra.Order.Ring.Abs
import Mathlib.Data.List.Count

/-! Counting vocabulary for bootstrap results. A sample is a matrix (row = to, column = from), NaN = `none`. -/
set_option autoImplicit false
namespace Verif

/-- A bootstrap sample. -/
abbrev Sample := Nat → Nat → Option ℚ

/-- Number of samples whose coefficient `from j to i` exceeds `thr` in absolute value (NaN counts as 0). -/
def occ (ms : List Sample) (thr : ℚ) (i j : Nat) : Nat :=
  ms.countP (fun m => decide (thr < |(m i j).getD 0|))

/-- ... is larger than `thr`. -/
def occPos (ms : List Sample) (thr : ℚ) (i j : Nat) : Nat :=
  ms.countP (fun m => decide (thr < (m i j).getD 0))

/-- ... is smaller than `-thr`. -/
def occNeg (ms : List Sample) (thr : ℚ) (i j : Nat) : Nat :=
  ms.countP (fun m => decide ((m i j).getD 0 < -thr))

/-- Two samples have the same thresholded edges. -/
def SameEdges (r c : Nat) (thr : ℚ) (m m' : Sample) : Prop :=
  ∀ i, i < r → ∀ j, j < c → (thr < |(m i j).getD 0| ↔ thr < |(m' i j).getD 0|)

/-- Two samples have the same thresholded edges with the same signs. -/
def SameSignedEdges (r c : Nat) (thr : ℚ) (m m' : Sample) : Prop :=
  ∀ i, i < r → ∀ j, j < c →
    (thr < (m i j).getD 0 ↔ thr < (m' i j).getD 0) ∧ ((m i j).getD 0 < -thr ↔ (m' i j).getD 0 < -thr)

end Verif

namespace Verif

open Classical in
/-- Number of samples satisfying `P`. -/
noncomputable def numWhere {α : Type} (ms : List α) (P : α → Prop) : Nat := ms.countP (fun m => decide (P m))

open Classical in
/-- The samples satisfying `P`, in order. -/
noncomputable def listWhere {α : Type} (ms : List α) (P : α → Prop) : List α := ms.filter (fun m => decide (P m))

/-- `x` is the median of the nonempty list `l`: the mean of the two middle elements of the sorted list. -/
def IsMedian (l : List ℚ) (x : ℚ) : Prop :=
  l ≠ [] ∧ ∃ s : List ℚ, s.Perm l ∧ s.Pairwise (· ≤ ·) ∧
    ∃ a b, s[(l.length - 1) / 2]? = some a ∧ s[l.length / 2]? = some b ∧ x = (a + b) / 2

end Verif
