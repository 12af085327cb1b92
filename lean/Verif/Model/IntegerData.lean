import Verif.Model.Rcd
import Verif.Model.Camuv
import Verif.Model.MultiGroupData

/-!
Model of `RCD`, `CAMUV` and `MultiGroupDirectLiNGAM` for data of an integer type.  `check_array` keeps the type, and a residual that
is assigned to a column of an array of that type is cut off to an integer.  A column is the list of its entries (exact rationals); the
regressions and the statistical tests are oracles.
-/
set_option autoImplicit false
namespace Verif.IntData

/-- A column of the data.  lingam/rcd.py:119, lingam/camuv.py:88. -/
abbrev Col := List ℚ

/-- The type of the data.  lingam/rcd.py:119, lingam/camuv.py:88 (`check_array` keeps integer types). -/
inductive DType where
  | float
  | int

/-- Assignment of a number to an entry of an array of this type.  lingam/rcd.py:151, lingam/camuv.py:232,
lingam/multi_group_direct_lingam.py:88-90. -/
def store : DType → ℚ → ℚ
  | .float => id
  | .int => Direct.truncate

/-- What is called on columns.
* `res Z y`: the residual of `y` regressed on `Z` (lingam/rcd.py:138-143, lingam/camuv.py:129-137);
* `nonGauss`, `corr`, `ind`: the tests of `RCD` (lingam/rcd.py:154-163, 176-184), without MLHSICR;
* `val`: the independence value of `CAMUV` (lingam/camuv.py:139-155). -/
structure Lib where
  res : List Col → Col → Col
  nonGauss : Col → Bool
  corr : Col → Col → Bool
  ind : Col → Col → Bool
  val : Col → List Col → Option ℚ

/-- The members of a set of variables in increasing order.  lingam/rcd.py:151. -/
def members (n : Nat) (H : Finset Nat) : List Nat := (List.range n).filter (fun k => decide (k ∈ H))

/-- Column `x` with `H` regressed out; the column itself for an empty set.  lingam/rcd.py:138-152, 318-330, 345-350,
lingam/camuv.py:129-137. -/
def without (L : Lib) (n : Nat) (X : Nat → Col) (H : Finset Nat) (x : Nat) : Col :=
  if H = ∅ then X x else L.res ((members n H).map X) (X x)

/-- The same as a column of an array of the type of the data.  lingam/rcd.py:145-152, lingam/camuv.py:175, 230-233. -/
def kept (L : Lib) (t : DType) (n : Nat) (X : Nat → Col) (H : Finset Nat) (x : Nat) : Col :=
  if H = ∅ then X x else (without L n X H x).map (store t)

/-- The tests of the search for ancestors, on the columns of `Y`.  lingam/rcd.py:145-163, 226-252. -/
def searchTests (L : Lib) (t : DType) (n : Nat) (X : Nat → Col) : Rcd.Tests where
  nonGauss := fun H x => L.nonGauss (kept L t n X H x)
  corr := fun A a B b => L.corr (kept L t n X A a) (kept L t n X B b)
  indep := fun H x l => l.all (fun y => L.ind (L.res (l.map (kept L t n X H)) (kept L t n X H x)) (kept L t n X H y))

/-- `RCD.fit`: the search works on `Y`, the later steps on residuals that are not stored.  lingam/rcd.py:104-130, 318-366. -/
def fitRcd (L : Lib) (t : DType) (coef : Rcd.Coef) (n maxNum fuel : Nat) (X : Nat → Col) : Option (Rcd.Anc × (Nat → Nat → Option ℚ)) :=
  match Rcd.extractAncestors (searchTests L t n X) n maxNum fuel with
  | none => none
  | some M =>
    let P := Rcd.extractParents (searchTests L .float n X) n M
    some (M, Rcd.adjacency coef n P (Rcd.extractConfounded (searchTests L .float n X) n P))

/-- Parameters of `CAMUV`.  lingam/camuv.py:28-36. -/
structure CamArgs where
  hsic : Bool
  alpha : ℚ
  indCorr : ℚ
  prior : Option (List (Nat × Nat))

/-- The values of the search for parents.  The residual of a candidate child is regressed on the other variables of the set and is not
stored (lingam/camuv.py:250-253); these are in `A`.  Otherwise both columns are columns of `Y` (lingam/camuv.py:265-272, and 160-168
where no variable is regressed out). -/
def searchVal (L : Lib) (t : DType) (n : Nat) (X : Nat → Col) (a : Nat) (A : Finset Nat) (l : List (Nat × Finset Nat)) : Option ℚ :=
  L.val (if l.all (fun p => decide (p.1 ∈ A)) then without L n X A a else kept L t n X A a) (l.map (fun p => kept L t n X p.2 p.1))

/-- The values of the final steps.  lingam/camuv.py:95-108, 210-219. -/
def finalVal (L : Lib) (n : Nat) (X : Nat → Col) (a : Nat) (A : Finset Nat) (l : List (Nat × Finset Nat)) : Option ℚ :=
  L.val (without L n X A a) (l.map (fun p => without L n X p.2 p.1))

/-- lingam/camuv.py:28-72: the parameters with the values. -/
def camCfg (g : CamArgs) (v : Nat → Finset Nat → List (Nat × Finset Nat) → Option ℚ) : Camuv.Cfg :=
  ⟨g.hsic, g.alpha, g.indCorr, g.prior, v, id⟩

/-- `CAMUV.fit`.  lingam/camuv.py:74-115, 170-221. -/
def fitCamuv (L : Lib) (t : DType) (g : CamArgs) (n maxnum fuel : Nat) (X : Nat → Col) : Option (Rcd.Anc × (Nat → Nat → Option ℚ)) :=
  let s := camCfg g (searchVal L t n X)
  let f := camCfg g (finalVal L n X)
  let N := Camuv.neighborhoods s n
  match Camuv.loop s N n maxnum fuel 2 (fun _ => ∅) with
  | none => none
  | some P =>
    let P := Camuv.prune f n P
    some (P, Camuv.adjacency (Camuv.confoundedPairs f n N P) P)

/-- The statistic and the regressions of `MultiGroupDirectLiNGAM` on one data set whose working copy has type `t`; the matrix is
estimated from the original data.  lingam/multi_group_direct_lingam.py:83-90, 102-104, 302-313. -/
def groupData (t : DType) (n : Nat) (g : MultiGroup.Sample) : MultiGroup.Data ℚ where
  size := g.N
  M := fun A U Uc Vj i => some (Direct.pwlingM g.num (Direct.working (store t) n g.X A).1 U Uc Vj i)
  lasso := Direct.adaptiveLasso g.select g.ols

/-- `MultiGroupDirectLiNGAM.fit`.  lingam/multi_group_direct_lingam.py:52-105. -/
def fitGroups (t : DType) (pk : Option Direct.PK) (soft : Bool) (gs : List MultiGroup.Sample) (n : Nat) :
    Except Direct.Err (List Nat × List (Nat → Nat → ℚ)) :=
  MultiGroup.fit pk soft (gs.map (groupData t n)) n

end Verif.IntData
