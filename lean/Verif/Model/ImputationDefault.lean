import Verif.Model.Imputation
import Verif.Model.MultiGroup

/-!
Model of `lingam/tools/__init__.py` (`bootstrap_with_imputation`) called with its defaults: `_DefaultMultipleImputation` and
`_DefaultMultiGroupCDModel`, that is `MultiGroupDirectLiNGAM` on the completed data sets.
-/
set_option autoImplicit false
namespace Verif.Imputation

variable {K : Type} [Field K]

/-- The exceptions: `check_scalar` refuses an argument (lingam/tools/__init__.py:88-100), the checks of the imputer and of the causal
discovery result (196-207, 260-285), fewer than two data sets (lingam/multi_group_direct_lingam.py:277-278), and those of the
search. -/
inductive RunErr
  | argument
  | imputer
  | discovery
  | tooFew
  | search (e : Direct.Err)
  deriving DecidableEq

/-- `_DefaultMultiGroupCDModel.fit`, lingam/tools/__init__.py:304-319: `stat` gives the statistics and regressions that
`MultiGroupDirectLiNGAM` computes on one completed data set. -/
def defaultDiscovery (pk : Option Direct.PK) (soft : Bool) (n : Nat) (stat : Data K → MultiGroup.Data K) (o : Imputed K) :
    Except RunErr (Discovery K) :=
  if o.reps < 2 then .error .tooFew
  else match MultiGroup.fit pk soft ((List.range o.reps).map (fun k => stat (o.val k))) n with
    | .error e => .error (.search e)
    | .ok (order, Bs) => .ok ⟨order.map (fun i : Nat => (i : Int)), [o.reps, n, n], Bs⟩

/-- One repetition.  lingam/tools/__init__.py:131-159. -/
def defaultStep (X : Data K) (N n reps : Nat) (pk : Option Direct.PK) (soft : Bool) (stat : Data K → MultiGroup.Data K)
    (idx : Nat → Nat) (fill : Nat → Nat → Nat → K) : Except RunErr (Sample K) :=
  let S := rowsOf X idx
  let o := defaultImputer reps N n fill S
  if imputerOk N n o then
    match defaultDiscovery pk soft n stat o with
    | .error e => .error e
    | .ok d =>
      if discoveryOk o.reps n d then .ok ⟨d.order, d.shape, d.mats, idx, o.reps, record S o⟩
      else .error .discovery
  else .error .imputer

/-- `bootstrap_with_imputation(X, n_sampling, n_repeats, prior_knowledge=..., apply_prior_knowledge_softly=...)`.
lingam/tools/__init__.py:22-166. -/
def defaultRun (X : Data K) (N n : Nat) (nSampling nRepeats : Int) (pk : Option Direct.PK) (soft : Bool)
    (stat : Nat → Data K → MultiGroup.Data K) (idx : Nat → Nat → Nat) (fill : Nat → Nat → Nat → Nat → K) :
    Except RunErr (List (Sample K)) :=
  if nSampling < 1 then .error .argument
  else if nRepeats < 1 then .error .argument
  else (List.range nSampling.toNat).mapM
    (fun i => defaultStep X N n nRepeats.toNat pk soft (stat i) (idx i) (fill i))

end Verif.Imputation
