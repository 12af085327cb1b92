import Mathlib.Logic.Relation
import Mathlib.Data.List.Basic
import Mathlib.Algebra.Order.Field.Basic
import Mathlib.Algebra.Order.Ring.Abs
import Mathlib.Algebra.BigOperators.Group.List.Basic

/-!
Specification vocabulary for graphs and orders.  Nothing here refers to the model of the code.
-/
set_option autoImplicit false
namespace Verif

/-- `p` is a directed path (a walk) from `a` to `b` along the relation `E` (`E x y` = edge `x → y`). -/
def IsPath (E : Nat → Nat → Prop) (a b : Nat) (p : List Nat) : Prop :=
  p.head? = some a ∧ p.getLast? = some b ∧ p.IsChain E

/-- No directed cycle. -/
def Acyclic (E : Nat → Nat → Prop) : Prop := ∀ i, ¬ Relation.TransGen E i i

/-- `a` occurs strictly before `b` in the list. -/
def Before (l : List Nat) (a b : Nat) : Prop := ∃ x y z, l = x ++ a :: (y ++ b :: z)

/-- `l` lists `0, …, n-1`, each exactly once. -/
def IsOrder (n : Nat) (l : List Nat) : Prop := l.Nodup ∧ ∀ i, i ∈ l ↔ i < n

/-- Edge `a → b` of an `n × n` weight matrix `W` (row = target, column = source) at threshold `thr`. -/
def Edge {K : Type} [Field K] [LinearOrder K] (n : Nat) (W : Nat → Nat → K) (thr : K) (a b : Nat) : Prop :=
  a < n ∧ b < n ∧ thr < |W b a|

/-- Product of the weights along the consecutive nodes of `p`. -/
def pathWeight {K : Type} [Field K] (W : Nat → Nat → K) (p : List Nat) : K :=
  (List.zipWith (fun a b => W b a) p p.tail).prod

end Verif
