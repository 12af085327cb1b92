import Verif.Model.IntegerData
import Verif.Props.DirectData

/-!
# Data of an integer type (C208)

The same numbers stored as integers and as floats.
-/
set_option autoImplicit false
set_option linter.unusedSectionVars false
namespace Verif.IntData
open Rcd (Anc)

/-! ### When the type does not matter -/

/-- No residual on a nonempty set of variables is changed by the conversion. -/
def WholeResiduals (L : Lib) (n : Nat) (X : Nat → Col) : Prop :=
  ∀ H : Finset Nat, H ≠ ∅ → ∀ x, ∀ v ∈ without L n X H x, ∃ z : ℤ, v = z

theorem truncate_int (z : ℤ) : Direct.truncate (z : ℚ) = z := by
  unfold Direct.truncate
  split <;> simp

theorem kept_float (L : Lib) (n : Nat) (X : Nat → Col) (H : Finset Nat) (x : Nat) : kept L .float n X H x = without L n X H x := by
  unfold kept
  split
  · rename_i h
    unfold without
    rw [if_pos h]
  · exact List.map_id _

theorem kept_whole {L : Lib} {n : Nat} {X : Nat → Col} (h : WholeResiduals L n X) (t : DType) (H : Finset Nat) (x : Nat) :
    kept L t n X H x = without L n X H x := by
  cases t with
  | float => exact kept_float L n X H x
  | int =>
    unfold kept
    by_cases hH : H = ∅
    · unfold without
      rw [if_pos hH, if_pos hH]
    · rw [if_neg hH]
      refine (List.map_congr_left (g := id) fun v hv => ?_).trans (List.map_id _)
      obtain ⟨z, rfl⟩ := h H hH x v hv
      exact truncate_int z

/-- **C208 (partial).** `RCD` gives the same result for both types if all residuals are integers. -/
theorem C208_rcd_partial {L : Lib} {n : Nat} {X : Nat → Col} (h : WholeResiduals L n X) (coef : Rcd.Coef) (maxNum fuel : Nat) :
    fitRcd L .int coef n maxNum fuel X = fitRcd L .float coef n maxNum fuel X := by
  have e : searchTests L .int n X = searchTests L .float n X := by
    have k : kept L .int n X = kept L .float n X := by
      funext H x
      rw [kept_whole h, kept_whole h]
    unfold searchTests
    rw [k]
  unfold fitRcd
  rw [e]

/-- **C208 (partial).** `CAMUV` gives the same result for both types if all residuals are integers. -/
theorem C208_camuv_partial {L : Lib} {n : Nat} {X : Nat → Col} (h : WholeResiduals L n X) (g : CamArgs) (maxnum fuel : Nat) :
    fitCamuv L .int g n maxnum fuel X = fitCamuv L .float g n maxnum fuel X := by
  have e : searchVal L .int n X = searchVal L .float n X := by
    funext a A l
    unfold searchVal
    simp only [kept_whole h]
  unfold fitCamuv
  rw [e]

/-- **C208 (partial).** `MultiGroupDirectLiNGAM` gives the same result for both types if the working data stay integers. -/
theorem C208_groups_partial {gs : List MultiGroup.Sample} {n : Nat}
    (h : ∀ g ∈ gs, ∀ A, Direct.working Direct.truncate n g.X A = Direct.working id n g.X A) (pk : Option Direct.PK) (soft : Bool) :
    fitGroups .int pk soft gs n = fitGroups .float pk soft gs n ∧ fitGroups .float pk soft gs n = MultiGroup.fitSamples pk soft gs n := by
  refine ⟨?_, rfl⟩
  unfold fitGroups
  congr 1
  refine List.map_congr_left fun g hg => ?_
  unfold groupData
  simp only [store, h g hg]

/-! ### What happens otherwise -/

/-- Every residual on a nonempty set of variables is smaller than one in absolute value. -/
def SmallResiduals (L : Lib) (n : Nat) (X : Nat → Col) : Prop :=
  ∀ H : Finset Nat, H ≠ ∅ → ∀ x, ∀ v ∈ without L n X H x, |v| < 1

theorem truncate_small {v : ℚ} (h : |v| < 1) : Direct.truncate v = 0 := by
  obtain ⟨h1, h2⟩ := abs_lt.1 h
  unfold Direct.truncate
  split
  · rename_i h0
    have : ⌊v⌋ = 0 := Int.floor_eq_iff.2 ⟨by simpa using h0, by simpa using h2⟩
    rw [this]; rfl
  · rename_i h0
    have : ⌈v⌉ = 0 := Int.ceil_eq_iff.2 ⟨by simpa using h1, by push_cast; linarith [not_le.1 h0]⟩
    rw [this]; rfl

theorem kept_small {L : Lib} {n : Nat} {X : Nat → Col} (h : SmallResiduals L n X) {H : Finset Nat} (hH : H ≠ ∅) (x : Nat) :
    kept L .int n X H x = List.replicate (without L n X H x).length 0 := by
  unfold kept
  rw [if_neg hH]
  refine List.eq_replicate_iff.2 ⟨by simp, fun b hb => ?_⟩
  obtain ⟨v, hv, rfl⟩ := List.mem_map.1 hb
  exact truncate_small (h H hH x v hv)

/-- The tests that never accept a set of variables with common ancestors as non-Gaussian. -/
def onlyWithout (t : Rcd.Tests) : Rcd.Tests := { t with nonGauss := fun H x => decide (H = ∅) && t.nonGauss H x }

theorem body_small {L : Lib} {n : Nat} {X : Nat → Col} (h : SmallResiduals L n X) (hc : ∀ k, L.nonGauss (List.replicate k 0) = false)
    (s : Rcd.St) (U : List Nat) : Rcd.body (searchTests L .int n X) s U = Rcd.body (onlyWithout (searchTests L .float n X)) s U := by
  unfold Rcd.body
  simp only
  split
  · rfl
  by_cases hH : Rcd.commonAncestors s.M U = ∅
  · have e0 : ∀ t x, kept L t n X ∅ x = X x := fun t x => by unfold kept; rw [if_pos rfl]
    rw [hH]
    have e1 : ∀ x, (searchTests L .int n X).nonGauss ∅ x = (onlyWithout (searchTests L .float n X)).nonGauss ∅ x := by
      intro x
      simp [searchTests, onlyWithout, e0]
    have e2 : Rcd.allCorrelated (searchTests L .int n X) ∅ U = Rcd.allCorrelated (onlyWithout (searchTests L .float n X)) ∅ U := by
      simp [Rcd.allCorrelated, searchTests, onlyWithout, e0]
    have e3 : Rcd.sinkSet (searchTests L .int n X) s.M ∅ U = Rcd.sinkSet (onlyWithout (searchTests L .float n X)) s.M ∅ U := by
      have : ∀ x l, (searchTests L .int n X).indep ∅ x l = (onlyWithout (searchTests L .float n X)).indep ∅ x l := by
        intro x l
        show l.all _ = l.all _
        have : ∀ t, kept L t n X ∅ = X := fun t => funext (e0 t)
        rw [this, this]
      simp only [Rcd.sinkSet, this]
    simp only [e1, e2, e3]
  · cases U with
    | nil => exact absurd rfl hH
    | cons a U =>
      have k1 : (searchTests L .int n X).nonGauss (Rcd.commonAncestors s.M (a :: U)) a = false := by
        show L.nonGauss _ = false
        rw [kept_small h hH, hc]
      have k2 : (onlyWithout (searchTests L .float n X)).nonGauss (Rcd.commonAncestors s.M (a :: U)) a = false := by
        simp [onlyWithout, hH]
      rw [if_pos (by simp [k1]), if_pos (by simp [k2])]

theorem loop_congr {t t' : Rcd.Tests} (h : ∀ s U, Rcd.body t s U = Rcd.body t' s U) (n maxNum : Nat) : ∀ fuel l s,
    Rcd.loop t n maxNum fuel l s = Rcd.loop t' n maxNum fuel l s
  | 0, _, _ => rfl
  | fuel + 1, l, s => by
    have hp : Rcd.pass t n l s = Rcd.pass t' n l s := by
      unfold Rcd.pass
      rw [show Rcd.body t = Rcd.body t' from funext fun s => funext fun U => h s U]
    rw [Rcd.loop, Rcd.loop, hp]
    simp only [loop_congr h n maxNum fuel]

/-- **C208 (violated).** For integer data with residuals below one, `RCD` ignores every set of variables that has a common ancestor found
before: it works as if the test of non-Gaussianity had failed there.  (A constant column fails this test.) -/
theorem C208_rcd_small {L : Lib} {n : Nat} {X : Nat → Col} (h : SmallResiduals L n X) (hc : ∀ k, L.nonGauss (List.replicate k 0) = false)
    (maxNum fuel : Nat) : Rcd.extractAncestors (searchTests L .int n X) n maxNum fuel =
      Rcd.extractAncestors (onlyWithout (searchTests L .float n X)) n maxNum fuel :=
  loop_congr (body_small h hc) n maxNum fuel 1 _

/-! ### A data set with different results

Sixteen rows: all combinations of four errors that are 0 or 1; `x1 = x0 + e1`, `x2 = x0 + x1 + e2`, `x3 = x0 + x1 + x2 + e3`.  The
independence test compares covariances of the columns and of their squared deviations. -/

/-- Sum of products. -/
def dot (a b : Col) : ℚ := (List.zipWith (· * ·) a b).sum

/-- Deviations from the mean. -/
def centre (v : Col) : Col := (fun m => v.map fun p => p - m) (v.sum / v.length)

/-- Residual of a centred column on one other. -/
def res1 (z y : Col) : Col := (fun b => List.zipWith (fun p q => q - b * p) z y) (dot y z / dot z z)

/-- Residual on several columns, one after the other, each regressed on the ones before. -/
def regressN : Nat → List Col → Col → Col
  | 0, _, y => y
  | k + 1, Z, y => match Z with
    | [] => y
    | z :: Z => regressN k (Z.map (res1 z)) (res1 z y)

/-- The residual of a regression with intercept. -/
def regress (Z : List Col) (y : Col) : Col := regressN Z.length (Z.map centre) (centre y)

/-- Covariance, up to the factor. -/
def cov (a b : Col) : ℚ := dot (centre a) b

/-- Squared deviations. -/
def square (v : Col) : Col := (centre v).map fun p => p * p

/-- The test of independence. -/
def exInd (a b : Col) : Bool := decide (cov a b = 0) && decide (cov (square a) (square b) = 0)

/-- Oracles: least squares, a test that rejects constant columns only, correlation and the test of independence. -/
def exLib : Lib where
  res := regress
  nonGauss := fun v => decide (cov v v ≠ 0)
  corr := fun a b => decide (cov a b ≠ 0)
  ind := exInd
  val := fun a l => some (if l.all (exInd a) then 1 else 0)

/-- The errors. -/
def exE (k : Nat) : Col := (List.range 16).map fun r => ((r / 2 ^ k % 2 : Nat) : ℚ)

/-- The data. -/
def exX : Nat → Col
  | 0 => exE 0
  | 1 => List.zipWith (· + ·) (exE 0) (exE 1)
  | 2 => List.zipWith (fun a b => a + b) (List.zipWith (fun a b => 2 * a + b) (exE 0) (exE 1)) (exE 2)
  | 3 => List.zipWith (fun a b => a + b) (List.zipWith (fun a b => 4 * a + 2 * b) (exE 0) (exE 1)) (List.zipWith (· + ·) (exE 2) (exE 3))
  | _ => []

/-- The coefficient of `p` in the regression of `x` on `ps`: what is left of `x` and of `p` without the others. -/
def exCoef : Rcd.Coef := fun ps x p =>
  let Z := (ps.filter (fun k => decide (k ≠ p))).map exX
  dot (regress Z (exX x)) (regress Z (exX p)) / dot (regress Z (exX p)) (regress Z (exX p))

/-- The sets and the matrix as lists. -/
def table (n : Nat) (r : Option (Anc × (Nat → Nat → Option ℚ))) : Option (List (List Nat) × List (List (Option ℚ))) :=
  r.map fun q => ((List.range n).map fun i => members n (q.1 i), (List.range n).map fun i => (List.range n).map fun j => q.2 i j)

/-- All numbers of the data are integers. -/
theorem exX_int : ∀ k, ∀ v ∈ exX k, Direct.truncate v = v := by
  intro k
  match k with
  | 0 | 1 | 2 | 3 => decide +kernel
  | k + 4 => intro v hv; cases hv

set_option maxRecDepth 100000 in
/-- **C208 (violated).** `RCD` with default arguments finds the model in the data stored as floats; for the same numbers stored as integers
it misses that `x2` is a cause of `x3` and reports a hidden common cause of them instead. -/
theorem C208_rcd_wrong :
    table 4 (fitRcd exLib .float exCoef 4 2 100 exX) = some ([[], [0], [0, 1], [0, 1, 2]],
      [[some 0, some 0, some 0, some 0], [some 1, some 0, some 0, some 0], [some 1, some 1, some 0, some 0],
        [some 1, some 1, some 1, some 0]]) ∧
    table 4 (fitRcd exLib .int exCoef 4 2 100 exX) = some ([[], [0], [0, 1], [0, 1]],
      [[some 0, some 0, some 0, some 0], [some 1, some 0, some 0, some 0], [some 1, some 1, some 0, none],
        [some 2, some 2, none, some 0]]) := by
  constructor <;> decide +kernel

/-- Arguments of `CAMUV`. -/
def exArgs : CamArgs := ⟨true, 1 / 100, 1 / 2, none⟩

set_option maxRecDepth 100000 in
/-- **C208 (violated).** `CAMUV` finds the graph of the first three variables stored as floats; for the same numbers stored as integers it
misses that `x1` is a cause of `x2` and reports a hidden common cause instead. -/
theorem C208_camuv_wrong :
    table 3 (fitCamuv exLib .float exArgs 3 2 100 exX) = some ([[], [0], [0, 1]],
      [[some 0, some 0, some 0], [some 1, some 0, some 0], [some 1, some 1, some 0]]) ∧
    table 3 (fitCamuv exLib .int exArgs 3 2 100 exX) = some ([[], [0], [0]],
      [[some 0, some 0, some 0], [some 1, some 0, none], [some 1, none, some 0]]) := by
  constructor <;> decide +kernel

/-- A data set for `MultiGroupDirectLiNGAM`. -/
def exGroup : MultiGroup.Sample := ⟨4, Direct.exNum, Direct.exInt, fun _ _ _ => true, fun _ _ _ => 0⟩

/-- **C208 (violated).** `MultiGroupDirectLiNGAM` returns different orders for the two types. -/
theorem C208_groups_wrong :
    (fitGroups .float none false [exGroup, exGroup] 3).map Prod.fst = .ok [2, 0, 1] ∧
    (fitGroups .int none false [exGroup, exGroup] 3).map Prod.fst = .ok [2, 1, 0] := by
  constructor <;> decide +kernel

/-! ### Concrete cases of the hypotheses -/

theorem members_two (H : Finset Nat) : members 2 H ∈ [[], [0], [1], [0, 1]] := by
  unfold members
  by_cases h0 : 0 ∈ H <;> by_cases h1 : 1 ∈ H <;> simp [List.range_succ, h0, h1]

/-- Four rows with residuals that are integers. -/
def wholeX : Nat → Col
  | 0 => [1, -1, 1, -1]
  | 1 => [2, 0, 0, -2]
  | _ => []

theorem wholeX_whole : WholeResiduals exLib 2 wholeX := by
  intro H hH x v hv
  have key : ∀ l ∈ [[], [0], [1], [0, 1]], ∀ x, ∀ v ∈ regress (l.map wholeX) (wholeX x), Direct.truncate v = v := by
    intro l hl x
    match x with
    | 0 => exact (by decide +kernel : ∀ l ∈ [[], [0], [1], [0, 1]], ∀ v ∈ regress (l.map wholeX) (wholeX 0), Direct.truncate v = v) l hl
    | 1 => exact (by decide +kernel : ∀ l ∈ [[], [0], [1], [0, 1]], ∀ v ∈ regress (l.map wholeX) (wholeX 1), Direct.truncate v = v) l hl
    | x + 2 => exact (by decide +kernel : ∀ l ∈ [[], [0], [1], [0, 1]], ∀ v ∈ regress (l.map wholeX) [], Direct.truncate v = v) l hl
  unfold without at hv
  rw [if_neg hH] at hv
  have := key _ (members_two H) x v hv
  unfold Direct.truncate at this
  split at this
  · exact ⟨_, this.symm⟩
  · exact ⟨_, this.symm⟩

example : fitRcd exLib .int (fun _ _ _ => 1) 2 2 10 wholeX = fitRcd exLib .float (fun _ _ _ => 1) 2 2 10 wholeX :=
  C208_rcd_partial wholeX_whole _ 2 10

/-- Two variables that are 0 or 1. -/
def smallX : Nat → Col
  | 0 => [0, 0, 1, 1]
  | 1 => [0, 1, 1, 1]
  | _ => []

theorem smallX_small : SmallResiduals exLib 2 smallX := by
  intro H hH x v hv
  have key : ∀ l ∈ [[], [0], [1], [0, 1]], ∀ x, ∀ v ∈ regress (l.map smallX) (smallX x), |v| < 1 := by
    intro l hl x
    match x with
    | 0 => exact (by decide +kernel : ∀ l ∈ [[], [0], [1], [0, 1]], ∀ v ∈ regress (l.map smallX) (smallX 0), |v| < 1) l hl
    | 1 => exact (by decide +kernel : ∀ l ∈ [[], [0], [1], [0, 1]], ∀ v ∈ regress (l.map smallX) (smallX 1), |v| < 1) l hl
    | x + 2 => exact (by decide +kernel : ∀ l ∈ [[], [0], [1], [0, 1]], ∀ v ∈ regress (l.map smallX) [], |v| < 1) l hl
  unfold without at hv
  rw [if_neg hH] at hv
  exact key _ (members_two H) x v hv

theorem exLib_const (k : Nat) : exLib.nonGauss (List.replicate k 0) = false := by
  have h1 : centre (List.replicate k 0) = List.replicate k 0 := by simp [centre]
  have h2 : dot (List.replicate k 0) (List.replicate k 0) = 0 := by simp [dot]
  simp [exLib, cov, h1, h2]

example : Rcd.extractAncestors (searchTests exLib .int 2 smallX) 2 2 10 =
    Rcd.extractAncestors (onlyWithout (searchTests exLib .float 2 smallX)) 2 2 10 := C208_rcd_small smallX_small exLib_const 2 10

end Verif.IntData
