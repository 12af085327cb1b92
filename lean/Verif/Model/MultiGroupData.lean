import Verif.Model.MultiGroup
import Verif.Model.DirectData

/-!
Model of `lingam/multi_group_direct_lingam.py` on data: what is computed from the sample of each group, and the total
effects.  The data are stored as floating point numbers (no conversion on assignment).
-/
set_option autoImplicit false
namespace Verif.MultiGroup

/-- lingam/multi_group_direct_lingam.py:79-104: the sample of one group and the functions computed on it: entropies and square
roots, the selection of the adaptive lasso, least squares. -/
structure Sample where
  N : Nat
  num : Direct.Numerics N
  X : Nat → Fin N → ℚ
  select : List Nat → Nat → Nat → Bool
  ols : Direct.Ols

/-- lingam/multi_group_direct_lingam.py:85-90, 302-313, 102-104: the statistic and the regressions on the sample of one group;
the effects of the removed variables have been taken out of it. -/
def Sample.data (n : Nat) (g : Sample) : Data ℚ where
  size := g.N
  M := fun A U Uc Vj i => some (Direct.pwlingM g.num (Direct.working id n g.X A).1 U Uc Vj i)
  lasso := Direct.adaptiveLasso g.select g.ols

/-- `fit`.  lingam/multi_group_direct_lingam.py:52-105. -/
def fitSamples (pk : Option Direct.PK) (soft : Bool) (gs : List Sample) (n : Nat) :
    Except Direct.Err (List Nat × List (Nat → Nat → ℚ)) :=
  fit pk soft (gs.map (Sample.data n)) n

/-- `estimate_total_effect`: one effect for each pair of a sample and a matrix.
lingam/multi_group_direct_lingam.py:165-212. -/
def totalEffects (gs : List Sample) (n : Nat) (Bs : List (Nat → Nat → ℚ)) (src dst : Nat) : List ℚ :=
  (gs.zip Bs).map (fun q => Direct.estimateTotalEffect q.1.ols n q.2 src dst)

end Verif.MultiGroup
