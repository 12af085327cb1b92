import Verif.Model.Parce
import Verif.Model.Rcd

/-!
Total effects of `lingam/bottom_up_parce_lingam.py`.  The search for the positions of source and destination (lines 417-438,
476-497) only decides about a warning.
-/
set_option autoImplicit false
namespace Verif.Parce

/-- lingam/bottom_up_parce_lingam.py:442, 500: the row of the source contains a NaN. -/
def rowNan (n : Nat) (B : Nat → Nat → Option ℚ) (src : Nat) : Bool := (List.range n).any (fun j => (B src j).isNone)

/-- lingam/bottom_up_parce_lingam.py:450-452: the source and its estimated parents. -/
def effectPredictors (n : Nat) (B : Nat → Nat → Option ℚ) (src : Nat) : List Nat :=
  src :: (List.range n).filter (fun j => decide (0 < |(B src j).getD 0|))

/-- lingam/bottom_up_parce_lingam.py:396-458: `estimate_total_effect`; `lr ps t p` is the coefficient of `p` in the
linear regression of `t` on `ps`. -/
def totalEffect (lr : Direct.Lasso ℚ) (n : Nat) (B : Nat → Nat → Option ℚ) (src dst : Nat) : Option ℚ :=
  if rowNan n B src then none else some (lr (effectPredictors n B src) dst src)

/-- lingam/bottom_up_parce_lingam.py:460-508: `estimate_total_effect2`. -/
def totalEffect2 (n : Nat) (B : Nat → Nat → Option ℚ) (src dst : Nat) : Option (Except Paths.Err (Option ℚ)) :=
  if rowNan n B src then some (.ok none) else Paths.calcTotalEffect n B src dst

/-- lingam/bottom_up_parce_lingam.py:606-616: the pairs `(to, from_)` in the order of the loops. The block is the
first item, so `to` is a single variable. -/
def effectPairs : List (List Nat) → List (Nat × Nat)
  | [] => []
  | src :: later =>
    later.flatMap (fun dst => match dst with
      | [t] => src.map (fun f => (t, f))
      | _ => []) ++ effectPairs later

/-- lingam/bottom_up_parce_lingam.py:606-616: store the effects of the pairs in the array of zeros (line 599). -/
def fillTotals (n : Nat) (B : Nat → Nat → Option ℚ) : List (Nat × Nat) → (Nat → Nat → Option ℚ) →
    Option (Except Paths.Err (Nat → Nat → Option ℚ))
  | [], T => some (.ok T)
  | (dst, src) :: ps, T =>
    match totalEffect2 n B src dst with
    | none => none
    | some (.error e) => some (.error e)
    | some (.ok v) => fillTotals n B ps (fun i j => if i = dst ∧ j = src then v else T i j)

/-- lingam/bottom_up_parce_lingam.py:599-616: the total effects that `bootstrap` stores for one sample with the fitted
order and matrix. -/
def bootstrapTotals (n : Nat) (o : Order) (B : Nat → Nat → Option ℚ) :
    Option (Except Paths.Err (Nat → Nat → Option ℚ)) :=
  fillTotals n B (effectPairs o.items) (fun _ _ => some 0)

end Verif.Parce
