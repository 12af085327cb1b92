import Mathlib.Algebra.Order.Field.Rat

/-! Small numpy helpers used by several models. -/
set_option autoImplicit false
namespace Verif

variable {K : Type} [Field K] [LinearOrder K]

/-- `np.argmax` in lingam/direct_lingam.py:237, 261: Scan of `np.argmax`: `i` next index, `bi`/`b` best index/value so
far (`none` = NaN). -/
def argmaxGo : Nat → Nat → Option K → List (Option K) → Nat
  | _, bi, _, [] => bi
  | _, bi, none, _ :: _ => bi
  | i, _, some _, none :: _ => i
  | i, bi, some v, some w :: xs =>
    if v < w then argmaxGo (i + 1) i (some w) xs else argmaxGo (i + 1) bi (some v) xs

/-- lingam/direct_lingam.py:237, 261; lingam/resit.py:96-110; lingam/experimental/oct.py:153: `np.argmax` of a 1-d
array: the first NaN if there is one, otherwise the first maximum;
`none` models the `ValueError` for an empty sequence. -/
def argmax : List (Option K) → Option Nat
  | [] => none
  | x :: xs => some (argmaxGo 1 0 x xs)

/-- lingam/direct_lingam.py:308: `np.argmin`, by negating the scores (same NaN and tie rules). -/
def argmin (l : List (Option K)) : Option Nat := argmax (l.map (Option.map (fun x => -x)))

end Verif
