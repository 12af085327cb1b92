import Verif.Model.MultiGroupData
import Verif.Model.ParceEffects

/-!
Model of `bootstrap` of `lingam/multi_group_direct_lingam.py` and of `estimate_total_effect` of
`lingam/multi_group_rcd.py`.
-/
set_option autoImplicit false
namespace Verif.MultiGroup
open Verif.Boot (Mat Err laterPairs)

/-- `estimate_total_effect2`: one effect per matrix.  lingam/multi_group_direct_lingam.py:233-238. -/
def totals (n src dst : Nat) : List Mat → Option (Except Err (List (Option ℚ)))
  | [] => some (.ok [])
  | B :: Bs =>
    match Paths.calcTotalEffect n B src dst with
    | none => none
    | some (.error e) => some (.error (.paths e))
    | some (.ok v) =>
      match totals n src dst Bs with
      | none => none
      | some (.error e) => some (.error e)
      | some (.ok vs) => some (.ok (v :: vs))

/-- `for i, effect in enumerate(effects): total_effects_list[i, n, to, from_] = effect`; `T i` is the array of data set `i`.
lingam/multi_group_direct_lingam.py:151-152. -/
def write (src dst : Nat) (vs : List (Option ℚ)) (T : Nat → Mat) : Nat → Mat := fun i r c =>
  if r = dst ∧ c = src then (vs[i]?).getD (T i r c) else T i r c

/-- The loops over the pairs of one sample.  lingam/multi_group_direct_lingam.py:147-152. -/
def fillAll (n : Nat) (Bs : List Mat) : List (Nat × Nat) → (Nat → Mat) → Option (Except Err (Nat → Mat))
  | [], T => some (.ok T)
  | (src, dst) :: ps, T =>
    match totals n src dst Bs with
    | none => none
    | some (.error e) => some (.error e)
    | some (.ok vs) => fillAll n Bs ps (write src dst vs T)

/-- The loop over the samples; `fit s` is the outcome of `self.fit` on the resampled data sets of round `s`.
lingam/multi_group_direct_lingam.py:139-152. -/
def bootLoop (n : Nat) (fit : Nat → Except Err (List Nat × List Mat)) :
    Nat → Nat → Option (Except Err (List (List Mat × (Nat → Mat))))
  | _, 0 => some (.ok [])
  | s, k + 1 =>
    match fit s with
    | .error e => some (.error e)
    | .ok (order, Bs) =>
      match fillAll n Bs (laterPairs order) (fun _ _ _ => some 0) with
      | none => none
      | some (.error e) => some (.error e)
      | some (.ok T) =>
        match bootLoop n fit (s + 1) k with
        | none => none
        | some (.error e) => some (.error e)
        | some (.ok rest) => some (.ok ((Bs, T) :: rest))

/-- `bootstrap` for `G` data sets: one list of (matrix, total effects) per data set.  Entries of arrays that are not written
stay zero.  lingam/multi_group_direct_lingam.py:107-158. -/
def groupBootstrap (n G : Nat) (fit : Nat → Except Err (List Nat × List Mat)) (nSampling : Int) :
    Option (Except Err (List (List (Mat × Mat)))) :=
  if G < 2 then some (.error .valueError)
  else if 0 < nSampling then
    match bootLoop n fit 0 nSampling.toNat with
    | none => none
    | some (.error e) => some (.error e)
    | some (.ok rs) => some (.ok ((List.range G).map (fun i => rs.map (fun r => (r.1.getD i (fun _ _ => some 0), r.2 i)))))
  else some (.error .valueError)

/-- `estimate_total_effect` of `MultiGroupRCD`: data sets and matrices in parallel, returning early (with the effects so far) at
a matrix whose row of the source contains NaN.  `lrs` are the linear regressions on the data sets.
lingam/multi_group_rcd.py:162-182. -/
def rcdEffects (n src dst : Nat) : List (Direct.Lasso ℚ) → List (Nat → Nat → Option ℚ) → List ℚ
  | lr :: lrs, B :: Bs =>
    if Parce.rowNan n B src then [] else lr (Parce.effectPredictors n B src) dst src :: rcdEffects n src dst lrs Bs
  | _, _ => []

end Verif.MultiGroup
