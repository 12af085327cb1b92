import Verif.Spec.Graph
import Mathlib.Data.List.Rotate
import Mathlib.Algebra.Order.Field.Rat

/-! Vocabulary for drawn graphs.  Nothing here refers to the model of the code. -/
set_option autoImplicit false
namespace Verif

/-- A directed cycle without repeated nodes, listed from any of its nodes. -/
def IsSimpleCycle (E : Nat → Nat → Prop) (c : List Nat) : Prop :=
  c.Nodup ∧ c.IsChain E ∧ ∃ a b, c.head? = some a ∧ c.getLast? = some b ∧ E b a

/-- What networkx promises about `all_simple_paths`: exactly the paths without repeated nodes. -/
def ListsSimplePaths (E : Nat → Nat → Prop) (s t : Nat) (paths : List (List Nat)) : Prop :=
  ∀ p, p ∈ paths ↔ IsPath E s t p ∧ p.Nodup

/-- What networkx promises about `simple_cycles`: cycles only, and every cycle from one of its nodes. -/
def ListsSimpleCycles (E : Nat → Nat → Prop) (cycles : List (List Nat)) : Prop :=
  (∀ c ∈ cycles, IsSimpleCycle E c) ∧ ∀ c, IsSimpleCycle E c → ∃ c' ∈ cycles, c' ~r c

/-- `b` can be reached from `a` in exactly `k` steps. -/
def Steps (E : Nat → Nat → Prop) : Nat → Nat → Nat → Prop
  | 0, a, b => a = b
  | k + 1, a, b => ∃ x, E a x ∧ Steps E k x b

/-- The shortest walk from `a` to `b` has `k` steps. -/
def DistanceIs (E : Nat → Nat → Prop) (a b k : Nat) : Prop := Steps E k a b ∧ ∀ j, j < k → ¬ Steps E j a b

/-- `a` points at `b` with a coefficient above the limit: column `a`, row `b` of a matrix whose unknown entries are `none`. -/
def Above (n : Nat) (A : Nat → Nat → Option ℚ) (lim : ℚ) (a b : Nat) : Prop :=
  a < n ∧ b < n ∧ ∃ x, A b a = some x ∧ lim < |x|

/-- `a` points at `b` with a coefficient that reaches the limit and is not taken for zero. -/
def Reaching (n : Nat) (A : Nat → Nat → Option ℚ) (lim : Option ℚ) (a b : Nat) : Prop :=
  a < n ∧ b < n ∧ ∃ x, A b a = some x ∧ 1 / 100000000 < |x| ∧ ∀ l, lim = some l → l ≤ |x|

/-- The step from `a` to `b` is on a path from `s` to `t` without repeated nodes. -/
def StepOnPath (E : Nat → Nat → Prop) (s t a b : Nat) : Prop :=
  ∃ x y, IsPath E s t (x ++ a :: b :: y) ∧ (x ++ a :: b :: y).Nodup

end Verif
