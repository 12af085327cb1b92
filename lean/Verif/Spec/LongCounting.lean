import Verif.Spec.Counting
import Verif.Spec.Graph
import Verif.Spec.TimeSeries

/-! Counting vocabulary for bootstrap results of longitudinal models: a sample is `A t lag to from`, NaN = `none`. -/
set_option autoImplicit false
namespace Verif

/-- A bootstrap sample of a longitudinal model. -/
abbrev LongSample := Nat → Nat → Nat → Nat → Option ℚ

/-- The matrices of one time point and lag. -/
def slice (ms : List LongSample) (t lag : Nat) : List Sample := ms.map (fun A => A t lag)

/-- Two samples have the same edges (with the same signs if `split`) into time point `t`, for every lag. -/
def SameEdgesAt (split : Bool) (p L : Nat) (thr : ℚ) (t : Nat) (A A' : LongSample) : Prop :=
  ∀ lag, lag ≤ L → (split = false → SameEdges p p thr (A t lag) (A' t lag)) ∧
    (split = true → SameSignedEdges p p thr (A t lag) (A' t lag))

/-- `q` is a directed path from variable `src` at time `srcT` to variable `dst` at time `dstT` in the graph over time of a
sample; node `p * t + i` is variable `i` at time `t`. -/
def HasPathOverTime (p L T : Nat) (thr : ℚ) (srcT src dstT dst : Nat) (A : LongSample) (q : List Nat) : Prop :=
  IsPath (Edge (p * T) (unrollT p L (fun t lag i j => (A t lag i j).getD 0)) thr) (p * srcT + src) (p * dstT + dst) q

end Verif
