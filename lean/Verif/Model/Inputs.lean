import Verif.Spec.Inputs
import Verif.Model.Rcd

/-!
Model of the checks of arguments: the constructors of `RCD`, `MultiGroupRCD`, `CAMUV`, `MultiGroupCAMUV`, `RESIT` and
`BottomUpParceLiNGAM`, the lists of data sets of the multi-group methods and of `LongitudinalLiNGAM`, and the search of RCD for an
arbitrary number as `max_explanatory_num`.  `check_array` is an oracle that returns an array or raises.  Arguments that cannot be compared
with 0 (strings, `None`) are not modelled.
-/
set_option autoImplicit false
namespace Verif.Inputs

/-- `x < 0`.  lingam/rcd.py:74, 77, 80, 89. -/
def below : Num → Bool
  | .nan => false
  | .negInf => true
  | .fin q => decide (q < 0)
  | .posInf => false

/-- `x <= 0`.  lingam/rcd.py:71. -/
def atMost : Num → Bool
  | .nan => false
  | .negInf => true
  | .fin q => decide (q ≤ 0)
  | .posInf => false

/-- The errors, by the argument that is complained about.  lingam/rcd.py:71-90; lingam/resit.py:43-50. -/
inductive Err
  | maxNum
  | corAlpha
  | indAlpha
  | shapiroAlpha
  | bwMethod
  | independence
  | indCorr
  | alpha
  | noRegressor
  | badRegressor
deriving DecidableEq

/-- The constructor of RCD.  lingam/rcd.py:71-90; also lingam/multi_group_rcd.py:63-82. -/
def rcdInit (maxNum corAlpha indAlpha shapiroAlpha : Num) (bw ind : String) (indCorr : Num) : Except Err Unit :=
  if atMost maxNum then .error .maxNum
  else if below corAlpha then .error .corAlpha
  else if below indAlpha then .error .indAlpha
  else if below shapiroAlpha then .error .shapiroAlpha
  else if !["mdbs", "scott", "silverman"].contains bw then .error .bwMethod
  else if !["hsic", "fcorr"].contains ind then .error .independence
  else if below indCorr then .error .indCorr
  else .ok ()

/-- The constructor of CAMUV, without the prior knowledge.  lingam/camuv.py:56-66; also lingam/multi_group_camuv.py:58-68. -/
def camuvInit (alpha maxNum : Num) (ind : String) (indCorr : Num) : Except Err Unit :=
  if atMost maxNum then .error .maxNum
  else if below alpha then .error .alpha
  else if !["hsic", "fcorr"].contains ind then .error .independence
  else if below indCorr then .error .indCorr
  else .ok ()

/-- A regressor as far as the constructors look at it: whether it has `fit` and `predict`.  lingam/resit.py:46. -/
structure Regressor where
  hasFit : Bool
  hasPredict : Bool

/-- The constructor of RESIT.  lingam/resit.py:43-50. -/
def resitInit (reg : Option Regressor) (alpha : Num) : Except Err Unit :=
  match reg with
  | none => .error .noRegressor
  | some r =>
    if !(r.hasFit && r.hasPredict) then .error .badRegressor
    else if below alpha then .error .alpha
    else .ok ()

/-- The constructor of BottomUpParceLiNGAM, without the prior knowledge.  lingam/bottom_up_parce_lingam.py:66-77. -/
def parceInit (reg : Option Regressor) (alpha : Num) (ind : String) (indCorr : Num) : Except Err Unit :=
  if (match reg with | none => false | some r => !(r.hasFit && r.hasPredict)) then .error .badRegressor
  else if below alpha then .error .alpha
  else if !["hsic", "fcorr"].contains ind then .error .independence
  else if below indCorr then .error .indCorr
  else .ok ()

/-! ### Lists of data sets -/

/-- lingam/multi_group_rcd.py:314-329; lingam/longitudinal_lingam.py:76-89: the errors for a list of data sets. -/
inductive ListErr (E : Type)
  | notList
  | tooFew
  | invalid (e : E)
  | different

section lists
variable {R A E κ : Type} [DecidableEq κ]

/-- The loop over the items.  lingam/multi_group_rcd.py:322-329. -/
def checkItems (valid : R → Except E A) (key : A → κ) (k0 : κ) : List R → Except (ListErr E) (List A)
  | [] => .ok []
  | x :: xs =>
    match valid x with
    | .error e => .error (.invalid e)
    | .ok a =>
      if key a = k0 then
        match checkItems valid key k0 xs with
        | .error e => .error e
        | .ok as => .ok (a :: as)
      else .error .different

/-- What an object remembers of the calls of `fit`: `_k`, the number of columns (shape) and the result of the last successful fit.
lingam/multi_group_rcd.py:320-321, 116-126. -/
structure Obj (κ S : Type) where
  k : Option Nat
  key : Option κ
  result : Option S

/-- `_check_X_list`, with its effects on the object.  `isList` tells whether the argument is a list (for `LongitudinalLiNGAM`: a list or an
array), `key` is the number of columns (for `LongitudinalLiNGAM`: the shape).
lingam/multi_group_rcd.py:312-331; lingam/multi_group_camuv.py:136-155; lingam/multi_group_direct_lingam.py:272-290 (without `_k`);
lingam/longitudinal_lingam.py:76-90. -/
def checkList {S : Type} (valid : R → Except E A) (key : A → κ) (isList : Bool) (xs : List R) (o : Obj κ S) :
    Obj κ S × Except (ListErr E) (List A) :=
  if !isList then (o, .error .notList)
  else match xs with
    | [] => (o, .error .tooFew)
    | [_] => (o, .error .tooFew)
    | x :: y :: xs =>
      match valid x with
      | .error e => ({ o with k := some (xs.length + 2) }, .error (.invalid e))
      | .ok a => ({ o with k := some (xs.length + 2), key := some (key a) }, checkItems valid key (key a) (x :: y :: xs))

/-- `fit`: the check, then the search, which is assumed not to raise; its result is stored at the end.  lingam/multi_group_rcd.py:95-128. -/
def fit {S : Type} (valid : R → Except E A) (key : A → κ) (search : List A → S) (isList : Bool) (xs : List R) (o : Obj κ S) :
    Obj κ S × Except (ListErr E) S :=
  match checkList valid key isList xs o with
  | (o', .error e) => (o', .error e)
  | (o', .ok ys) => ({ o' with result := some (search ys) }, .ok (search ys))

end lists

/-! ### `max_explanatory_num` -/

/-- `l < self._max_explanatory_num`.  lingam/rcd.py:311. -/
def less (l : Nat) : Num → Bool
  | .nan => false
  | .negInf => false
  | .fin q => decide ((l : ℚ) < q)
  | .posInf => true

/-- The `while True` loop of `_extract_ancestors` for any number as limit.  lingam/rcd.py:261-314; also lingam/multi_group_rcd.py:497-548. -/
def rcdLoop (t : Rcd.Tests) (n : Nat) (maxNum : Num) : Nat → Nat → Rcd.St → Option Rcd.Anc
  | 0, _, _ => none
  | fuel + 1, l, s =>
    let s' := Rcd.pass t n l s
    if s'.changed then rcdLoop t n maxNum fuel 1 s'
    else if less l maxNum then rcdLoop t n maxNum fuel (l + 1) s'
    else some s'.M

/-- `_extract_ancestors`.  lingam/rcd.py:254-316. -/
def rcdAncestors (t : Rcd.Tests) (n : Nat) (maxNum : Num) (fuel : Nat) : Option Rcd.Anc :=
  rcdLoop t n maxNum fuel 1 ⟨fun _ => ∅, [], false⟩

end Verif.Inputs
