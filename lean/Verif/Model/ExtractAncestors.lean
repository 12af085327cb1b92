import Verif.Model.RcdData

/-!
Model of `extract_ancestors` in `lingam/utils/_rcd.py`, a second implementation of the search of `lingam/rcd.py` as a function.  It is
written here independently of `Verif.Model.Rcd`, loop by loop; only the library routines and the formulas for residuals, correlation and
the HSIC test (`Verif.Model.RcdData`) are shared.  The default `bw_method` is modelled.
-/
set_option autoImplicit false
namespace Verif.ExtractAnc
open Verif.RcdData (Lib resid listOf pearsonP residMlhsicr)

variable {N : Nat}

/-- The keyword arguments.  lingam/utils/_rcd.py:14-19. -/
structure Args where
  maxNum : Int
  corAlpha : ℝ
  indAlpha : ℝ
  shapiroAlpha : ℝ
  mlhsicr : Bool

/-- The default values.  lingam/utils/_rcd.py:14-18. -/
noncomputable def Args.default : Args := ⟨2, 1 / 100, 1 / 100, 1 / 100, true⟩

/-- `get_common_ancestors`, lingam/utils/_rcd.py:120-123. -/
def commonAncestors (M : Nat → Finset Nat) : List Nat → Finset Nat
  | [] => ∅
  | [a] => M a
  | a :: b :: l => M a ∩ commonAncestors M (b :: l)

/-- `get_residual_matrix`: columns outside `U` stay zero.  lingam/utils/_rcd.py:126-133. -/
noncomputable def residualMatrix (L : Lib N) (n : Nat) (X : Nat → Fin N → ℝ) (U : List Nat) (H : Finset Nat) : Nat → Fin N → ℝ :=
  if H.card = 0 then X else fun j => if j ∈ U then resid L X j (listOf n H) else fun _ => 0

/-- `is_non_gaussianity`, lingam/utils/_rcd.py:136-141. -/
noncomputable def isNonGaussianity (L : Lib N) (alpha : ℝ) (Y : Nat → Fin N → ℝ) : List Nat → Bool
  | [] => true
  | x :: U => if alpha < L.shapiro (Y x) then false else isNonGaussianity L alpha Y U

/-- `is_correlated`; a comparison with NaN is false.  lingam/utils/_rcd.py:144-146. -/
noncomputable def isCorrelated (L : Lib N) (alpha : ℝ) (a b : Fin N → ℝ) : Bool :=
  match pearsonP L a b with
  | some p => decide (p < alpha)
  | none => false

/-- The loop over the pairs of `U` with `break`.  lingam/utils/_rcd.py:79-84. -/
noncomputable def allCorrelated (L : Lib N) (alpha : ℝ) (Y : Nat → Fin N → ℝ) : List (List Nat) → Bool
  | [] => true
  | c :: cs => if !isCorrelated L alpha (Y (c.getD 0 0)) (Y (c.getD 1 0)) then false else allCorrelated L alpha Y cs

/-- The first loop of `exists_ancestor_in_U`, lingam/utils/_rcd.py:151-153. -/
def someHas (M : Nat → Finset Nat) (xi : Nat) : List Nat → Bool
  | [] => false
  | xj :: l => if xi ∈ M xj then true else someHas M xi l

/-- `exists_ancestor_in_U`, lingam/utils/_rcd.py:149-158. -/
def existsAncestor (M : Nat → Finset Nat) (xi : Nat) (xjs : List Nat) : Bool :=
  if someHas M xi xjs then true else if xjs.toFinset = xjs.toFinset ∩ M xi then true else false

/-- `is_independent`; a comparison with NaN is false.  lingam/utils/_rcd.py:245-247. -/
noncomputable def isIndependent (L : Lib N) (alpha : ℝ) (a b : Fin N → ℝ) : Bool :=
  match Hsic.test L.gammaSf (Mlhsicr.col a) (Mlhsicr.col b) with
  | .ok (_, some p) => decide (alpha < p)
  | _ => false

/-- The loops over `xj_list` with `break` or `return`.  lingam/utils/_rcd.py:168-176, 185-192. -/
noncomputable def allIndependent (L : Lib N) (alpha : ℝ) (r : Fin N → ℝ) (Y : Nat → Fin N → ℝ) : List Nat → Bool
  | [] => true
  | xj :: l => if !isIndependent L alpha r (Y xj) then false else allIndependent L alpha r Y l

/-- `is_independent_of_resid`, lingam/utils/_rcd.py:161-193. -/
noncomputable def isIndependentOfResid (L : Lib N) (c : Args) (Y : Nat → Fin N → ℝ) (xi : Nat) (xjs : List Nat) : Bool :=
  if allIndependent L c.indAlpha (resid L Y xi xjs) Y xjs then true
  else if xjs.length = 1 ∨ c.mlhsicr = false then false
  else allIndependent L c.indAlpha (residMlhsicr L Y xi xjs) Y xjs

/-- `list(set(U) - set([xi]))`; the numbers are small, so sets are iterated in increasing order.  lingam/utils/_rcd.py:90. -/
def without (U : List Nat) (xi : Nat) : List Nat := U.filter (fun x => !(x == xi))

/-- The loop that collects `sink_set`.  lingam/utils/_rcd.py:88-99. -/
noncomputable def sinks (L : Lib N) (c : Args) (M : Nat → Finset Nat) (Y : Nat → Fin N → ℝ) (U : List Nat) : List Nat → List Nat → List Nat
  | [], acc => acc
  | xi :: l, acc =>
    if existsAncestor M xi (without U xi) then sinks L c M Y U l acc
    else if isIndependentOfResid L c Y xi (without U xi) then sinks L c M Y U l (acc ++ [xi])
    else sinks L c M Y U l acc

/-- The variables of the loop: `M`, `hu_history` and `changed`.  lingam/utils/_rcd.py:54-61. -/
structure St where
  M : Nat → Finset Nat
  hist : List Nat → Option (Finset Nat)
  changed : Bool

/-- The update with the only sink.  lingam/utils/_rcd.py:101-107. -/
def update (s : St) (U : List Nat) (sk : List Nat) : St :=
  if sk.length = 1 then
    let xi := sk.getD 0 0
    let xjs := U.filter (fun x => !sk.contains x)
    if ¬ s.M xi = s.M xi ∪ xjs.toFinset then { s with M := fun i => if i = xi then s.M xi ∪ xjs.toFinset else s.M i, changed := true }
    else s
  else s

/-- The body of the loop over `U_list`.  lingam/utils/_rcd.py:65-109. -/
noncomputable def step (L : Lib N) (c : Args) (n : Nat) (X : Nat → Fin N → ℝ) (s : St) (U : List Nat) : St :=
  let H := commonAncestors s.M U
  if s.hist U = some H then s
  else
    let Y := residualMatrix L n X U H
    if !isNonGaussianity L c.shapiroAlpha Y U then s
    else if !allCorrelated L c.corAlpha Y (Rcd.combos 2 U) then s
    else
      let s' := update s U (sinks L c s.M Y U U [])
      { s' with hist := fun V => if V = U then some H else s'.hist V }

/-- The `while` loop, with fuel.  lingam/utils/_rcd.py:60-117. -/
noncomputable def loop (L : Lib N) (c : Args) (n : Nat) (X : Nat → Fin N → ℝ) : Nat → Nat → St → Option (Nat → Finset Nat)
  | 0, _, _ => none
  | fuel + 1, l, s =>
    let s' := (Rcd.combos (l + 1) (List.range n)).foldl (step L c n X) { s with changed := false }
    if s'.changed then loop L c n X fuel 1 s'
    else if (l : Int) < c.maxNum then loop L c n X fuel (l + 1) s'
    else some s'.M

/-- `extract_ancestors` for an array.  lingam/utils/_rcd.py:12-117. -/
noncomputable def extract (L : Lib N) (c : Args) (n fuel : Nat) (X : Nat → Fin N → ℝ) : Option (Nat → Finset Nat) :=
  loop L c n X fuel 1 ⟨fun _ => ∅, fun _ => none, false⟩

/-- What `X` may be: something with a `shape`, or another array-like, such as a list of rows. -/
inductive Input (N : Nat) where
  | array (n : Nat) (X : Nat → Fin N → ℝ)
  | rows (n : Nat) (X : Nat → Fin N → ℝ)

/-- `extract_ancestors`; the first line reads `X.shape` before `check_array` converts `X`: `AttributeError` for a list.
lingam/utils/_rcd.py:53-58. -/
noncomputable def call (L : Lib N) (c : Args) (fuel : Nat) : Input N → Except Unit (Option (Nat → Finset Nat))
  | .array n X => .ok (extract L c n fuel X)
  | .rows _ _ => .error ()

end Verif.ExtractAnc
