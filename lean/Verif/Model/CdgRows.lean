import Verif.Model.Cdg
import Mathlib.Data.List.Range

/-!
Row labels in `lingam/experimental/cdg.py` (`CausalDataGenerator`): how pandas aligns interventions that are given as a `Series`, and
which rows the last statement of `generate` selects.  Labels are natural numbers; `N` is the number of rows.  The models and the other
steps are those of `Verif.Model.Cdg`.
-/
set_option autoImplicit false
namespace Verif.Cdg

variable {K : Type} [Field K]

/-- The values of an intervention, lingam/experimental/cdg.py:145-153: an array (or list), or a `Series` with its own row labels.
`_check_data_dict` (331-351) converts the values for its checks only and returns the dictionary as it was. -/
inductive Values (K : Type)
  | array (c : Col K)
  | series (lab : Nat → Nat) (c : Col K)

/-- The positions of the rows of a frame that have label `l`.  pandas, used by lingam/experimental/cdg.py:273. -/
def positions (N : Nat) (lab : Nat → Nat) (l : Nat) : List Nat := (List.range N).filter (fun s => decide (lab s = l))

/-- The assignment `generated[name] = values`, lingam/experimental/cdg.py:197, 201, 237.  pandas takes arrays, and `Series` with the
labels of the frame, by position; other `Series` by label, with NaN where a label is missing, and refuses them if a label occurs
twice. -/
def align (N : Nat) (lab : Nat → Nat) : Values K → Except Err (Col K)
  | .array c => .ok c
  | .series lab' c =>
    if ∀ r ∈ List.range N, lab' r = lab r then .ok c
    else if ((List.range N).map lab').Nodup then
      .ok (fun r => ((positions N lab' (lab r)).head?).bind c)
    else .error .valueError

/-- All assignments from a dictionary. lingam/experimental/cdg.py:196-197, 200-201, 236-237. -/
def alignAll (N : Nat) (lab : Nat → Nat) (d : List (Nat × Values K)) : Except Err (List (Nat × Col K)) :=
  d.mapM (fun e => (align N lab e.2).map (fun c => (e.1, c)))

/-- `generated.loc[self._X.index]`, lingam/experimental/cdg.py:273: the positions of the selected rows.  For each label of the training
data, in turn, all rows of `generated` with that label. -/
def selected (N : Nat) (lab : Nat → Nat) : List Nat := (List.range N).flatMap (fun r => positions N lab (lab r))

/-- `generate` with row labels, lingam/experimental/cdg.py:133-275: the returned rows in turn, each with its label.  Endogenous
interventions on adjustments are never assigned (`look` in `genCause` and `genEffect`), so they are not aligned.  If several exceptions
are due, the code raises the one that comes first in the order of its statements; here those of the alignment come before those of the
models. -/
def generateRows (N : Nat) (lab : Nat → Nat) (f : Fitted K) (endog exog : List (Nat × Values K))
    (umC umE : Option (UserModel K)) : Except Err (List (Nat × (Nat → Option K))) :=
  if ∃ v ∈ (endog ++ exog).map Prod.fst, v ∉ f.names then .error .valueError
  else
    match alignAll N lab exog, alignAll N lab (endog.filter (fun e => e.1 == f.cause || e.1 == f.effect)) with
    | .ok ex, .ok en =>
      match generate f en ex umC umE with
      | .error e => .error e
      | .ok g => .ok ((selected N lab).map (fun s => (lab s, fun v => g v s)))
    | _, _ => .error .valueError

end Verif.Cdg
