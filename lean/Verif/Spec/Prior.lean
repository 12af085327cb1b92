import Verif.Spec.Graph

/-! Meaning of a prior knowledge matrix (row = to, column = from), independent of the model. -/
set_option autoImplicit false
namespace Verif

/-- The precedence requirement carried by the matrix: `a` must come before `b` if a path `a → b` is requested, or if
`b` is known to have no path to `a` while this is not known the other way round. -/
def MustPrecede (n : Nat) (pk : Nat → Nat → Int) (a b : Nat) : Prop :=
  a < n ∧ b < n ∧ (pk b a = 1 ∨ (pk a b = 0 ∧ pk b a ≠ 0))

/-- A path `a → b` is requested. -/
def PathRequested (n : Nat) (pk : Nat → Nat → Int) (a b : Nat) : Prop :=
  a < n ∧ b < n ∧ a ≠ b ∧ 0 < pk b a

/-! Soft prior knowledge: what the matrix says about the variables not yet placed (`< n` and not in `pre`). -/

/-- `x` is known to receive nothing from the other remaining variables. -/
def KnownExogenous (n : Nat) (pk : Nat → Nat → Int) (pre : List Nat) (x : Nat) : Prop :=
  ∀ y, y < n → y ∉ pre → y ≠ x → pk x y = 0

/-- Some remaining variable is known to have a path to `x`. -/
def KnownEndogenous (n : Nat) (pk : Nat → Nat → Int) (pre : List Nat) (x : Nat) : Prop :=
  ∃ y, y < n ∧ y ∉ pre ∧ y ≠ x ∧ 0 < pk x y

/-- `x` is known to send nothing to the other remaining variables. -/
def KnownSink (n : Nat) (pk : Nat → Nat → Int) (pre : List Nat) (x : Nat) : Prop :=
  ∀ y, y < n → y ∉ pre → y ≠ x → pk y x = 0

/-- `x` may be placed next: it is known to be exogenous; or nothing is, and `x` is not known to be endogenous or a sink. -/
def SoftCandidate (n : Nat) (pk : Nat → Nat → Int) (pre : List Nat) (x : Nat) : Prop :=
  x < n ∧ x ∉ pre ∧ (KnownExogenous n pk pre x ∨
    ((∀ y, y < n → y ∉ pre → ¬ KnownExogenous n pk pre y) ∧ ¬ KnownEndogenous n pk pre x ∧ ¬ KnownSink n pk pre x))

/-- `x` is a remaining non-candidate known to receive nothing from any candidate. -/
def SoftUntouched (n : Nat) (pk : Nat → Nat → Int) (pre : List Nat) (x : Nat) : Prop :=
  x < n ∧ x ∉ pre ∧ ¬ SoftCandidate n pk pre x ∧ ∀ c, SoftCandidate n pk pre c → pk x c = 0

end Verif
