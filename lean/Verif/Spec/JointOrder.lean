import Verif.Spec.Pairwise

/-!
# The common causal order of several data sets

Specification for `MultiGroupDirectLiNGAM`: the evidence against a variable is the mean of the evidence in the data sets, weighted
by their numbers of rows.
-/
set_option autoImplicit false
namespace Verif

/-- A sample of some size. -/
abbrev SizedSample := Σ N : Nat, Nat → Fin N → ℝ

/-- Mean of the penalties of variable `i` in the samples, weighted by the sample sizes. -/
noncomputable def jointPenalty (ds : List SizedSample) (U : List Nat) (i : Nat) : ℝ :=
  (ds.map (fun d => d.1 * penalty d.2 U i)).sum / (ds.map (fun d => (d.1 : ℝ))).sum

/-- In the sample `d'` the variables `U` other than `m` are without their linear dependence on `m` in `d`. -/
def SampleResidual (U : List Nat) (m : Nat) (d d' : SizedSample) : Prop :=
  ∃ (N : Nat) (x x' : Nat → Fin N → ℝ), d = ⟨N, x⟩ ∧ d' = ⟨N, x'⟩ ∧ ∀ i ∈ U, i ≠ m → IsSlopeResidual (x i) (x m) (x' i)

/-- The variables `U` are listed so that each comes after those that must precede it and, among the variables allowed at its place,
has the strictly smallest joint penalty, after removing in every sample the linear dependence on the earlier ones. -/
inductive JointOrder (pre : Nat → Nat → Prop) : List SizedSample → List Nat → List Nat → Prop
  | nil (ds : List SizedSample) : JointOrder pre ds [] []
  | cons {ds ds' : List SizedSample} {U l : List Nat} {m : Nat} (hm : m ∈ U) (allowed : ∀ a ∈ U, ¬ pre a m)
      (best : ∀ i ∈ U, i ≠ m → (∀ a ∈ U, ¬ pre a i) → jointPenalty ds U m < jointPenalty ds U i)
      (res : List.Forall₂ (SampleResidual U m) ds ds')
      (rest : JointOrder pre ds' (U.filter (fun i => decide (i ≠ m))) l) : JointOrder pre ds U (m :: l)

end Verif
