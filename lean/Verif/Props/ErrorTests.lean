import Verif.Model.ErrorTests
import Verif.Props.Utils
import Verif.Props.VarRecovery
import Verif.Props.Varma
import Verif.Props.Longitudinal

/-!
# Independence tests of the errors: time series and several data sets (C162, C163)

Which columns does `get_error_independence_p_values` test?
-/
set_option linter.unusedSectionVars false
set_option autoImplicit false
namespace Verif.ErrorTests
open Verif.Utils (pairs setSym mem_pairs foldl_setSym)
open Verif.Var (lagFn lagFn1 mv oneSub)

variable {K : Type} [Field K] [LinearOrder K] [IsStrictOrderedRing K]

/-- A table of pairwise results: symmetric, `zero` on the diagonal, entry `i < j` is the result for the pair `(i, j)`. -/
def PairTable {α : Type} (n : Nat) (zero : α) (P : Nat → Nat → α) (res : Nat → Nat → α) : Prop :=
  (∀ i j, P i j = P j i) ∧ (∀ i, P i i = zero) ∧ ∀ i j, i < j → j < n → P i j = res i j

/-- The values of variable `i` of a series `e` at the times `p, …, T - 1`. -/
def errorSeries (p T : Nat) (e : Nat → Nat → K) (i : Nat) : List K := (List.range (T - p)).map (fun r => e (r + p) i)

theorem fill_table {α : Type} (n : Nat) (zero : α) (test : Nat → Nat → α) :
    PairTable n zero (fill n zero test) test := by
  have key := fun a b => foldl_setSym (fun ij : Nat × Nat => test ij.1 ij.2) a b (pairs n)
    (fun _ _ => zero) (fun q hq => (mem_pairs.1 (show (q.1, q.2) ∈ pairs n from hq)).1)
  refine ⟨?_, ?_, ?_⟩
  · intro i j
    unfold fill
    rw [key, key]
    by_cases h1 : (i, j) ∈ pairs n
    · have h2 : (j, i) ∉ pairs n := fun h => by rw [mem_pairs] at h h1; omega
      simp [h1, h2]
    · by_cases h2 : (j, i) ∈ pairs n <;> simp [h1, h2]
  · intro i
    unfold fill
    rw [key]
    have h1 : (i, i) ∉ pairs n := fun h => by rw [mem_pairs] at h; omega
    simp [h1]
  · intro i j hij hj
    unfold fill
    rw [key, if_pos (mem_pairs.2 ⟨hij, hj⟩)]

theorem PairTable.congr {α : Type} {n : Nat} {zero : α} {P : Nat → Nat → α} {f g : Nat → Nat → α} (h : PairTable n zero P f)
    (hfg : ∀ i j, i < j → j < n → f i j = g i j) : PairTable n zero P g :=
  ⟨h.1, h.2.1, fun i j hij hj => by rw [h.2.2 i j hij hj, hfg i j hij hj]⟩

/-! ### VARLiNGAM -/

/-- Residual rows that are the innovations of the data for the VAR coefficients `Ms`. -/
def Innovations (n : Nat) (X R : Var.Data K) (Ms : List (Nat → Nat → K)) : Prop :=
  R.rows = X.rows - Ms.length ∧
    ∀ r, r < R.rows → ∀ i, i < n → R.val r i = innovation n Ms.length (lagFn1 Ms) X.val (r + Ms.length) i

/-- **C162 (VARLiNGAM without pruning).** Whenever the residuals are the innovations of the data (in particular for
coefficients given by the user), the columns tested are the errors of the reported structural equations. -/
theorem C162_var (E : Var.Env K) (o o' : Var.Obj K) (X : Var.Data K) (hp : o.prune = false) (h : Var.fit E o X = .ok o')
    (hR : ∀ R Ms, o'.residuals = some R → o'.arCoefs = some Ms → Innovations E.n X R Ms) (hsic : List K → List K → K) :
    ∃ Bs p P, o'.adjacency = some Bs ∧ Bs.length = p + 1 ∧ varPValues E.n o' hsic = some P ∧
      ∀ e : Nat → Nat → K, (∀ t, p ≤ t → t < X.rows → StructEq E.n p (lagFn Bs) X.val t (e t)) →
        PairTable E.n 0 P (fun i j => hsic (errorSeries p X.rows e i) (errorSeries p X.rows e j)) := by
  obtain ⟨Ms, Bs, h1, h2, h3, h4⟩ := Var.C36_structural_equations E o o' X hp h
  obtain ⟨Ms', _, R, Bs', _, _, ho⟩ := Var.fit_ok h
  have hres : o'.residuals = some R := by rw [ho]
  obtain ⟨hrows, hval⟩ := hR R Ms hres h1
  refine ⟨Bs, Ms.length, _, h2, h3, by unfold varPValues; rw [hres, h2], ?_⟩
  intro e he
  refine (fill_table E.n 0 _).congr ?_
  have col : ∀ i, i < E.n → column E.n (Bs.getD 0 fun _ _ => 0) R i = errorSeries Ms.length X.rows e i := by
    intro i hi
    unfold column errorSeries
    rw [hrows]
    refine List.map_congr_left fun r hr => ?_
    have hr' := List.mem_range.1 hr
    have h5 := (h4 X.val (r + Ms.length) (e (r + Ms.length))).1 (he _ (by omega) (by omega)) i hi
    unfold errors
    rw [Var.mv_oneSub _ _ _ hi, h5, hval r (by omega) i hi]
    congr 1
    exact Finset.sum_congr rfl fun j hj => by rw [hval r (by omega) j (Finset.mem_range.1 hj)]; rfl
  intro i j hij hj
  rw [col i (by omega), col j hj]

/-- With coefficients given by the user the residuals are the innovations. -/
theorem C162_var_given (E : Var.Env K) (o o' : Var.Obj K) (X : Var.Data K) (Ms : List (Nat → Nat → K))
    (ha : o.arCoefs = some Ms) (h : Var.fit E o X = .ok o') :
    ∀ R Ms', o'.residuals = some R → o'.arCoefs = some Ms' → Innovations E.n X R Ms' := by
  intro R Ms' hr hm
  obtain ⟨R', h1, h2, h3⟩ := Var.C36_residuals E o o' X Ms ha h
  obtain ⟨Ms'', lags, resid, Bs, h4, _, ho⟩ := Var.fit_ok h
  obtain ⟨rfl, rfl, rfl⟩ := Var.arPart_some ha h4
  rw [h1] at hr
  injection hr with hr
  have : o'.arCoefs = some Ms'' := by rw [ho]
  rw [this] at hm
  injection hm with hm
  subst hr hm
  exact ⟨h2, fun r _ i _ => h3 r i⟩

/-- **C162 (VARLiNGAM in general, also with pruning).** What is tested is the error of the reported structural equations
plus the effect of the past that the reported lag matrices and `(I - B0) M` disagree about. -/
theorem C162_var_difference (E : Var.Env K) (o o' : Var.Obj K) (X : Var.Data K) (h : Var.fit E o X = .ok o')
    (hR : ∀ R Ms, o'.residuals = some R → o'.arCoefs = some Ms → Innovations E.n X R Ms) (hsic : List K → List K → K) :
    ∃ Ms Bs P, o'.arCoefs = some Ms ∧ o'.adjacency = some Bs ∧ Bs.length = Ms.length + 1 ∧ varPValues E.n o' hsic = some P ∧
      ∀ e : Nat → Nat → K, (∀ t, Ms.length ≤ t → t < X.rows → StructEq E.n Ms.length (lagFn Bs) X.val t (e t)) →
        let d := fun t i => e t i + ∑ k ∈ Finset.range Ms.length, ∑ j ∈ Finset.range E.n,
          (lagFn Bs (k + 1) i j - (lagFn1 Ms (k + 1) i j - ∑ l ∈ Finset.range E.n, lagFn Bs 0 i l * lagFn1 Ms (k + 1) l j)) *
            X.val (t - (k + 1)) j
        PairTable E.n 0 P (fun i j => hsic (errorSeries Ms.length X.rows d i) (errorSeries Ms.length X.rows d j)) := by
  obtain ⟨Ms, _, R, Bs, h1, h2, ho⟩ := Var.fit_ok h
  have hres : o'.residuals = some R := by rw [ho]
  have har : o'.arCoefs = some Ms := by rw [ho]
  have hadj : o'.adjacency = some Bs := by rw [ho]
  obtain ⟨hrows, hval⟩ := hR R Ms hres har
  refine ⟨Ms, Bs, _, har, hadj, (Var.lagMatrices_ok h2).1, by unfold varPValues; rw [hres, hadj], ?_⟩
  intro e he d
  refine (fill_table E.n 0 _).congr ?_
  have col : ∀ i, i < E.n → column E.n (Bs.getD 0 fun _ _ => 0) R i = errorSeries Ms.length X.rows d i := by
    intro i hi
    unfold column errorSeries
    rw [hrows]
    refine List.map_congr_left fun r hr => ?_
    have hr' := List.mem_range.1 hr
    set t := r + Ms.length with ht
    have h5 := he t (by omega) (by omega) i hi
    have e0 : (Bs.getD 0 fun _ _ => 0) = lagFn Bs 0 := rfl
    unfold errors
    have hv : ∀ j, j < E.n → R.val r j = innovation E.n Ms.length (lagFn1 Ms) X.val t j := fun j hj => hval r (by omega) j hj
    have h6 : mv E.n (oneSub (lagFn Bs 0)) (R.val r) i =
        mv E.n (oneSub (lagFn Bs 0)) (innovation E.n Ms.length (lagFn1 Ms) X.val t) i := by
      unfold Var.mv
      exact Finset.sum_congr rfl fun j hj => by rw [hv j (Finset.mem_range.1 hj)]
    -- the errors of the structural equations with lag matrices `(I - B0) M`
    have h7 := (Var.structEq_iff E.n Ms.length
      (fun k => if k = 0 then lagFn Bs 0 else Var.mm E.n (oneSub (lagFn Bs 0)) (lagFn1 Ms k)) (lagFn1 Ms)
      (fun k _ => by simp) X.val t (mv E.n (oneSub (lagFn Bs 0)) (innovation E.n Ms.length (lagFn1 Ms) X.val t))).2
      (fun i _ => by simp) i hi
    rw [e0, h6]
    rw [Finset.sum_range_succ'] at h5 h7
    simp only [Nat.succ_ne_zero, if_false, if_true] at h7
    have h8 : ∀ k j, Var.mm E.n (oneSub (lagFn Bs 0)) (lagFn1 Ms (k + 1)) i j =
        lagFn1 Ms (k + 1) i j - ∑ l ∈ Finset.range E.n, lagFn Bs 0 i l * lagFn1 Ms (k + 1) l j := by
      intro k j
      show mv E.n (oneSub (lagFn Bs 0)) (fun l => lagFn1 Ms (k + 1) l j) i = _
      rw [Var.mv_oneSub _ _ _ hi]
      rfl
    have h9 : ∑ k ∈ Finset.range Ms.length, ∑ j ∈ Finset.range E.n,
        (lagFn Bs (k + 1) i j - (lagFn1 Ms (k + 1) i j - ∑ l ∈ Finset.range E.n, lagFn Bs 0 i l * lagFn1 Ms (k + 1) l j)) *
            X.val (t - (k + 1)) j =
        ∑ k ∈ Finset.range Ms.length, ∑ j ∈ Finset.range E.n, lagFn Bs (k + 1) i j * X.val (t - (k + 1)) j -
        ∑ k ∈ Finset.range Ms.length, ∑ j ∈ Finset.range E.n,
          Var.mm E.n (oneSub (lagFn Bs 0)) (lagFn1 Ms (k + 1)) i j * X.val (t - (k + 1)) j := by
      rw [← Finset.sum_sub_distrib]
      refine Finset.sum_congr rfl fun k _ => ?_
      rw [← Finset.sum_sub_distrib]
      refine Finset.sum_congr rfl fun j _ => ?_
      rw [h8]
      ring
    show _ = e t i + _
    rw [h9]
    linarith
  intro i j hij hj
  rw [col i (by omega), col j hj]

/-- **C162 (VARLiNGAM, recovery).** Under the hypotheses of `C153_recovered` the columns tested are the true errors. -/
theorem C162_var_true_errors {N : Nat} (E : Var.Env ℚ) (o : Var.Obj ℚ) (X : Var.Data ℚ) (ha : o.arCoefs = none)
    (hp : o.prune = false) {f : Var.VarFit ℚ} (hest : Var.estimateVar E o X = some f) (hf : Var.FitByLs E.n N X f)
    {B : Nat → Nat → Nat → ℚ} {e : Nat → Nat → ℚ} (hx : FollowsVar E.n f.coefs.length X.rows B X.val e)
    (hort : OrthogonalPast E.n f.coefs.length N X.val e) (hind : PastIndependent E.n f.coefs.length N X.val)
    (hl : Var.LingamRight (N := N) E.n E.lingam (B 0) (fun i r => e (r + f.coefs.length) i))
    (hsic : List ℚ → List ℚ → ℚ) :
    ∃ o' P, Var.fit E o X = .ok o' ∧ varPValues E.n o' hsic = some P ∧
      PairTable E.n 0 P (fun i j => hsic (errorSeries f.coefs.length X.rows e i) (errorSeries f.coefs.length X.rows e j)) := by
  obtain ⟨o', order, Bs, h1, h2, h3, h4, h5, h6, h7⟩ := Var.C153_recovered E o X ha hp hest hf hx hort hind hl
  have harp : Var.arPart E o X = .ok (f.coefs, f.kAr, f.resid) := by unfold Var.arPart; rw [ha]; simp only [hest]
  obtain ⟨Ms, lags, R, Bs', h8, _, ho⟩ := Var.fit_ok h1
  rw [harp] at h8
  simp only [Except.ok.injEq, Prod.mk.injEq] at h8
  obtain ⟨rfl, rfl, rfl⟩ := h8
  have hR : ∀ R Ms, o'.residuals = some R → o'.arCoefs = some Ms → Innovations E.n X R Ms := by
    intro R Ms hr hm
    rw [ho] at hr hm
    simp only [Option.some.injEq] at hr hm
    subst hr hm
    have hs := hf.size
    refine ⟨by rw [hf.rows]; omega, fun r hr i hi => hf.resid r (by rw [hf.rows] at hr; exact hr) i hi⟩
  obtain ⟨Bs2, p, P, h10, h11, h12, h13⟩ := C162_var E o o' X hp h1 hR hsic
  rw [h3] at h10
  injection h10 with h10
  subst h10
  have hpe : p = f.coefs.length := by omega
  subst hpe
  refine ⟨o', P, h1, h12, h13 e ?_⟩
  intro t ht hT i hi
  rw [hx t ht hT i hi]
  congr 1
  exact Finset.sum_congr rfl fun k hk => Finset.sum_congr rfl fun j hj => by
    rw [h7 k (by have := Finset.mem_range.1 hk; omega) i j hi (Finset.mem_range.1 hj)]

/-! Concrete cases: the series of `C153`; a regression that sets everything to zero when pruning. -/

/-- VAR by least squares, the right LiNGAM result, a regression that keeps nothing. -/
def rcEnv : Var.Env ℚ := ⟨2, fun _ _ => Var.rcFit, fun _ => ([0, 1], Var.rcB 0), fun _ _ _ _ => 0⟩

/-- `VARLiNGAM(lags=1, criterion=None, prune=pr)`. -/
def rcObj (pr : Bool) : Var.Obj ℚ := { arCoefs := none, lags := 1, useCriterion := false, prune := pr }

/-- In place of the p-value: the first value of the first column, which shows what is tested. -/
def firstOf (x _ : List ℚ) : ℚ := x.headD 0

/-- The entry `(i, j)` of the table after a fit. -/
def varEntry (r : Except Paths.Err (Var.Obj ℚ)) (hsic : List ℚ → List ℚ → ℚ) (i j : Nat) : Option ℚ :=
  r.toOption.bind (fun o => (varPValues 2 o hsic).map (fun P => P i j))

/-- **C162, negation for pruning (the default).** The pruned matrices are zero, so the errors of the reported equations are
the observations themselves, the first one being 2.  What is tested starts with 1, the residual of the unpruned VAR. -/
theorem C162_var_pruned_wrong :
    varEntry (Var.fit rcEnv (rcObj true) Var.rcSeries) firstOf 0 1 = some 1 ∧
    (∀ k i j, k < 2 → i < 2 → j < 2 → ((Var.fit rcEnv (rcObj true) Var.rcSeries).toOption.bind (fun o =>
      o.adjacency.map (fun Bs => lagFn Bs k i j))) = some 0) ∧
    StructEq 2 1 (fun _ _ _ => 0) Var.rcVal 1 (Var.rcVal 1) ∧ Var.rcVal 1 0 = 2 := by
  refine ⟨by decide +kernel, ?_, ?_, by decide +kernel⟩
  · have : ∀ k, k < 2 → ∀ i, i < 2 → ∀ j, j < 2 → ((Var.fit rcEnv (rcObj true) Var.rcSeries).toOption.bind (fun o =>
      o.adjacency.map (fun Bs => lagFn Bs k i j))) = some 0 := by decide +kernel
    exact fun k i j hk hi hj => this k hk i hi j hj
  · intro i _
    simp

/-- `C162_var`, `C162_var_true_errors`: without pruning the column of variable 0 starts with its first true error. -/
example : varEntry (Var.fit rcEnv (rcObj false) Var.rcSeries) firstOf 0 1 = some (Var.rcErr 1 0) ∧
    varEntry (Var.fit rcEnv (rcObj false) Var.rcSeries) firstOf 1 0 = some (Var.rcErr 1 0) ∧
    varEntry (Var.fit rcEnv (rcObj false) Var.rcSeries) firstOf 1 1 = some 0 := by decide +kernel

/-- The hypotheses of `C162_var_true_errors` are met. -/
example : ∃ o' P, Var.fit rcEnv (rcObj false) Var.rcSeries = .ok o' ∧ varPValues 2 o' firstOf = some P ∧
    PairTable 2 0 P (fun i j => firstOf (errorSeries 1 6 Var.rcErr i) (errorSeries 1 6 Var.rcErr j)) := by
  refine C162_var_true_errors (N := 5) rcEnv (rcObj false) Var.rcSeries rfl rfl rfl Var.rcFit_ls Var.rcFollows Var.rcOrth
    (fun d h => Var.rcIndC d 0 h) ?_ firstOf
  intro D _ _
  refine ⟨⟨show [0, 1].Nodup by decide, fun i => by
      show i ∈ [0, 1] ↔ i < 2
      simp only [List.mem_cons, List.not_mem_nil, or_false]; omega⟩, ?_, fun _ _ _ _ => rfl⟩
  intro i j hi hj hne
  have h2 : i = 1 ∧ j = 0 := by
    by_contra hc
    apply hne
    unfold Var.rcB
    rw [if_neg (fun h => hc h.2), if_neg (by omega)]
  obtain ⟨rfl, rfl⟩ := h2
  exact ⟨[], [], [], rfl⟩

/-- The hypotheses of `C162_var_given` (coefficients given by the user) are met. -/
example : varEntry (Var.fit rcEnv { rcObj false with arCoefs := some [Var.rcM] } Var.rcSeries) firstOf 0 1 = some 1 := by
  decide +kernel

/-! ### VARMALiNGAM -/

theorem lagFn_calcPsi_succ (n : Nat) (psi0 : Nat → Nat → K) (phis : List (Nat → Nat → K)) {k : Nat} (hk : k < phis.length) :
    lagFn (Varma.calcPsi n psi0 phis phis.length) (k + 1) = Var.mm n (oneSub psi0) (lagFn1 phis (k + 1)) := by
  simp [lagFn, lagFn1, Varma.calcPsi, List.getD_eq_getElem?_getD, hk]

theorem lagFn1_calcOmega (n : Nat) (psi0 : Nat → Nat → K) (thetas : List (Nat → Nat → K)) {k : Nat} (hk : k < thetas.length) :
    lagFn1 (Varma.calcOmega n psi0 thetas thetas.length) (k + 1) = Var.mm n (oneSub psi0) (lagFn1 thetas (k + 1)) := by
  simp [lagFn1, Varma.calcOmega, List.getD_eq_getElem?_getD, hk]

/-- **C162 (VARMALiNGAM, given coefficients, no pruning).** The columns tested are `(I - Ψ0) u` for a sequence `u` that
solves the VARMA equation; they are errors of the reported structural equations if `θ_k Ψ0 = 0` for every MA lag. -/
theorem C162_varma_partial (E : Varma.Env K) (o o' : Varma.Obj K) (X : Var.Data K) (phis thetas : List (Nat → Nat → K))
    (ha : o.ar = some phis) (hm : o.ma = some thetas) (hpq : o.order = (phis.length, thetas.length)) (hp : o.prune = false)
    (h : Varma.fit E o X = .ok o') (hsic : List K → List K → K) :
    ∃ (psis omegas : List (Nat → Nat → K)) (u : Nat → Nat → K) (P : Nat → Nat → K),
      o'.adjacency = some (psis, omegas) ∧ varmaPValues E.n o' hsic = some P ∧
      (let e := fun t i => u t i - ∑ j ∈ Finset.range E.n, lagFn psis 0 i j * u t j
       PairTable E.n 0 P (fun i j => hsic (errorSeries (max phis.length thetas.length) X.rows e i)
        (errorSeries (max phis.length thetas.length) X.rows e j))) ∧
      ∀ t, max phis.length thetas.length ≤ t → t < X.rows →
        VarmaEq E.n phis.length thetas.length (lagFn1 phis) (lagFn1 thetas) X.val u t ∧
        ((∀ k, k < thetas.length → ∀ i j, i < E.n → j < E.n →
            ∑ l ∈ Finset.range E.n, lagFn1 thetas (k + 1) i l * lagFn psis 0 l j = 0) →
          StructVarmaEq E.n phis.length thetas.length (lagFn psis) (lagFn1 omegas) X.val
            (fun s => mv E.n (oneSub (lagFn psis 0)) (u s)) t) := by
  obtain ⟨R, u, h1, h2, h3, h4⟩ := Varma.C71_residuals E o o' X phis thetas ha hm h
  obtain ⟨p', t', pq, resid, ms, h5, h6, ho⟩ := Varma.fit_ok h
  rw [Varma.armaPart_some ha hm] at h5
  simp only [Except.ok.injEq, Prod.mk.injEq] at h5
  obtain ⟨rfl, rfl, rfl, rfl⟩ := h5
  unfold Varma.matrices at h6
  rw [hp, hpq] at h6
  simp only [Option.getD_some, lt_self_iff_false, or_self, if_false, Bool.false_eq_true, Except.ok.injEq] at h6
  have hadj : o'.adjacency = some ms := by rw [ho]
  obtain ⟨psis, omegas⟩ := ms
  obtain ⟨h61, h62⟩ := Prod.mk.injEq _ _ _ _ ▸ h6
  refine ⟨psis, omegas, u, _, hadj, by unfold varmaPValues; rw [h1, hadj], ?_, ?_⟩
  · refine (fill_table E.n 0 _).congr ?_
    have col : ∀ i, i < E.n → column E.n (psis.getD 0 fun _ _ => 0) R i =
        errorSeries (max phis.length thetas.length) X.rows
          (fun t i => u t i - ∑ j ∈ Finset.range E.n, lagFn psis 0 i j * u t j) i := by
      intro i hi
      unfold column errorSeries
      rw [h2]
      refine List.map_congr_left fun r _ => ?_
      unfold errors
      rw [Var.mv_oneSub _ _ _ hi, h3]
      congr 1
      exact Finset.sum_congr rfl fun j _ => by rw [h3]; rfl
    intro i j hij hj
    rw [col i (by omega), col j hj]
  · intro t ht hT
    refine ⟨h4 t ht hT, fun hz => ?_⟩
    refine Varma.C40_right_transformation E.n phis.length thetas.length (lagFn1 phis) (lagFn1 thetas) (lagFn psis)
      (lagFn1 omegas) ?_ ?_ X.val u t (h4 t ht hT)
    · intro k hk i j _ _
      rw [← h61]
      exact congrFun (congrFun (lagFn_calcPsi_succ E.n _ phis hk) i) j
    · intro k hk i j hi hj
      have e1 : lagFn1 omegas (k + 1) = Var.mm E.n (oneSub (lagFn psis 0)) (lagFn1 thetas (k + 1)) := by
        rw [← h61, ← h62]
        exact lagFn1_calcOmega E.n _ thetas hk
      rw [e1]
      show mv E.n (Var.mm E.n (oneSub (lagFn psis 0)) (lagFn1 thetas (k + 1))) (fun l => oneSub (lagFn psis 0) l j) i = _
      rw [Var.mm_mv]
      unfold Var.mm Var.mv
      refine Finset.sum_congr rfl fun m hm' => ?_
      congr 1
      have hz' := hz k hk m j (Finset.mem_range.1 hm') hj
      unfold oneSub
      simp only [mul_sub, Finset.sum_sub_distrib, hz', sub_zero]
      simp [Finset.sum_ite_eq', hj]

/-- Two variables with MA coefficients `θ`, instantaneous matrix `C40`'s `exPsi0`, and two samples. -/
def maFit (theta : Nat → Nat → ℚ) : Except Paths.Err (Varma.Obj ℚ) :=
  Varma.fit ⟨2, fun X pq => ⟨none, none, pq, X, none⟩, fun _ => ([0, 1], Varma.exPsi0), fun _ _ _ _ _ => 0,
      fun _ t i => Varma.exU t i⟩
    { ar := some [], ma := some [theta], order := (0, 1), useCriterion := false, prune := false }
    ⟨2, fun t i => if t = 0 then Varma.exU 0 i else 0⟩

/-- The hypotheses of `C162_varma_partial` are met; also `θ Ψ0 = 0`, for `θ` with only the entry `(0, 0)` at 1 and `Ψ0` with
only the entry `(1, 0)`: see the second part. -/
example : (maFit Varma.exTheta).toOption.isSome ∧ (maFit (fun i j => if i = 0 ∧ j = 0 then 1 else 0)).toOption.isSome ∧
    ∀ i, i < 2 → ∀ j, j < 2 →
      ∑ l ∈ Finset.range 2, (if i = 0 ∧ l = 0 then (1 : ℚ) else 0) * Varma.exPsi0 l j = 0 := by decide +kernel

/-! ### LongitudinalLiNGAM -/

theorem sumNan_some {l : List (Option K)} {f : Nat → K} {p : Nat} (h : l = (List.range p).map (fun k => some (f k))) :
    sumNan l = some (∑ k ∈ Finset.range p, f k) := by
  subst h
  have gen : ∀ l : List Nat, sumNan (l.map (fun k => some (f k))) = some ((l.map f).sum) := by
    intro l
    induction l with
    | nil => rfl
    | cons a l ih =>
      show (match some (f a), sumNan (l.map (fun k => some (f k))) with | some a, some b => some (a + b) | _, _ => none) = _
      rw [ih]
      simp
  rw [gen]
  congr 1

theorem sumNan_none {l : List (Option K)} (h : none ∈ l) : sumNan l = none := by
  induction l with
  | nil => simp at h
  | cons a l ih =>
    show (match a, sumNan l with | some a, some b => some (a + b) | _, _ => none) = none
    rcases List.mem_cons.1 h with h | h
    · rw [← h]
    · rw [ih h]
      cases a <;> rfl

/-- **C162 (LongitudinalLiNGAM).** Without prior knowledge: no p-values for time 0; for the times from `n_lags` on the
columns tested are the errors `e_t` of the structural equations of that time (in the lag order of `C41_reversed`), one
value per sample. -/
theorem C162_longitudinal (E : Longitudinal.Env K) (o o' : Longitudinal.Obj K) (X : Longitudinal.Panel K) (hpk : o.pk = none)
    (h : Longitudinal.fit E o X = .ok o') (hsic : List (Option K) → List (Option K) → Option K) :
    ∃ A P, o'.adjacency = some A ∧ longPValues X.T X.n X.p o' hsic = .ok P ∧ (∀ i j, P 0 i j = none) ∧
      ∀ t, o.nLags ≤ t → 1 ≤ t → t < X.T → ∀ e : Nat → Nat → K,
        (∀ s, s < X.n → StructEq X.p o.nLags (Longitudinal.reversed o.nLags A t) (fun t' i => X.val t' s i) t (e s)) →
        PairTable X.p (some 0) (P t) (fun i j => hsic ((List.range X.n).map (fun s => some (e s i)))
          ((List.range X.n).map (fun s => some (e s j)))) := by
  obtain ⟨A, R, h1, h2, h3⟩ := Longitudinal.C41_reversed E o o' X hpk h
  refine ⟨A, _, h1, by unfold longPValues; rw [h2, h1], fun i j => by simp, ?_⟩
  intro t hL h0 hT e he
  rw [if_pos ⟨h0, hT⟩]
  refine (fill_table X.p (some 0) _).congr ?_
  have col : ∀ i, i < X.p → longColumn X.p X.n A R t i = (List.range X.n).map (fun s => some (e s i)) := by
    intro i hi
    unfold longColumn
    refine List.map_congr_left fun s hs => ?_
    obtain ⟨h4, h5, h6⟩ := h3 t hL hT s
    have h7 := he s (List.mem_range.1 hs) i hi
    have h8 := h6 i hi
    have h9 := add_left_cancel (h7.symm.trans h8)
    rw [h9]
    unfold longErrors
    rw [sumNan_some (f := fun k => ((if i = k then 1 else 0) - Longitudinal.documented A t 0 i k) * (R t s k).getD 0) (p := X.p)]
    · congr 1
      exact Var.mv_oneSub X.p (Longitudinal.documented A t 0) (fun k => (R t s k).getD 0) hi
    · refine List.map_congr_left fun k _ => ?_
      obtain ⟨b, hb⟩ := Option.isSome_iff_exists.1 (h4 0 i k (Nat.zero_le _))
      obtain ⟨r, hr⟩ := Option.isSome_iff_exists.1 (h5 k)
      unfold Longitudinal.documented
      rw [hb, hr]
      rfl
  intro i j hij hj
  rw [col i (by omega), col j hj]

/-- **C162 (LongitudinalLiNGAM, early times).** For the times `1, …, n_lags - 1` every pair is tested although both columns
consist of NaN only. -/
theorem C162_longitudinal_early (E : Longitudinal.Env K) (o o' : Longitudinal.Obj K) (X : Longitudinal.Panel K)
    (hpk : o.pk = none) (h : Longitudinal.fit E o X = .ok o') (hsic : List (Option K) → List (Option K) → Option K) :
    ∃ P, longPValues X.T X.n X.p o' hsic = .ok P ∧ ∀ t, 1 ≤ t → t < o.nLags → t < X.T →
      PairTable X.p (some 0) (P t) (fun _ _ => hsic (List.replicate X.n none) (List.replicate X.n none)) := by
  unfold Longitudinal.fit at h
  split at h
  · cases h
  rw [hpk] at h
  obtain ⟨hL, _, _, rs, A, hlen, hA, _, h1, h2, _⟩ := Longitudinal.fitPlain_ok h
  have hr : o'.residuals_ = .ok (fun t s i =>
      if o.nLags ≤ t ∧ t < X.T then some (Longitudinal.nT E o.nLags X t i s) else none) := by
    unfold Longitudinal.Obj.residuals_
    rw [h2]
  refine ⟨_, by unfold longPValues; rw [hr, h1], ?_⟩
  intro t h0 ht hT
  rw [if_pos ⟨h0, hT⟩]
  refine (fill_table X.p (some 0) _).congr ?_
  intro i j hij hj
  have col : ∀ i, i < X.p → longColumn X.p X.n A
      (fun t s i => if o.nLags ≤ t ∧ t < X.T then some (Longitudinal.nT E o.nLags X t i s) else none) t i =
      List.replicate X.n none := by
    intro i hi
    unfold longColumn
    rw [List.eq_replicate_iff]
    refine ⟨by simp, ?_⟩
    intro b hb
    obtain ⟨s, _, rfl⟩ := List.mem_map.1 hb
    refine sumNan_none (List.mem_map.2 ⟨0, List.mem_range.2 (by omega), ?_⟩)
    have : ¬ (o.nLags ≤ t ∧ t < X.T) := by omega
    simp only [this, if_false]
    split <;> simp_all
  rw [col i (by omega), col j hj]

/-- **C162 (LongitudinalLiNGAM, prior knowledge).** After a fit with prior knowledge on a fresh object no p-values can be
computed: the residuals are missing. -/
theorem C162_longitudinal_prior (E : Longitudinal.Env K) (o o' : Longitudinal.Obj K) (X : Longitudinal.Panel K)
    (A : Nat → Nat → Nat → Nat → Int) (hpk : o.pk = some A) (hfresh : o.residuals = none)
    (h : Longitudinal.fit E o X = .ok o') (hsic : List (Option K) → List (Option K) → Option K) :
    longPValues X.T X.n X.p o' hsic = .error .attribute := by
  unfold Longitudinal.fit at h
  split at h
  · cases h
  rw [hpk] at h
  simp only [Longitudinal.fitPrior] at h
  split at h
  · cases h
  · injection h with h
    subst h
    unfold longPValues Longitudinal.Obj.residuals_
    simp [hfresh]

/-! ### Several data sets -/

theorem tables_length (zero : Nat → Nat → Option K)
    (f : (Nat × (Nat → Nat → K)) → (Nat → Nat → Option K) → (Nat → Nat → Option K)) :
    ∀ (Xs : List (Nat × (Nat → Nat → K))) (Bs : List (Nat → Nat → Option K)), (tables zero f Xs Bs).length = Xs.length
  | [], _ => rfl
  | _ :: Xs, [] => by simp [tables, tables_length zero f Xs []]
  | _ :: Xs, _ :: Bs => by simp [tables, tables_length zero f Xs Bs]

theorem tables_getElem (zero : Nat → Nat → Option K)
    (f : (Nat × (Nat → Nat → K)) → (Nat → Nat → Option K) → (Nat → Nat → Option K)) :
    ∀ (Xs : List (Nat × (Nat → Nat → K))) (Bs : List (Nat → Nat → Option K)) (k : Nat) (X : Nat × (Nat → Nat → K)),
      Xs[k]? = some X → (tables zero f Xs Bs)[k]? = some (match Bs[k]? with | some B => f X B | none => zero)
  | [], _, _, _, h => by simp at h
  | Y :: Xs, [], k, X, h => by
    cases k with
    | zero => simp [tables]
    | succ k => simpa [tables] using tables_getElem zero f Xs [] k X (by simpa using h)
  | Y :: Xs, B :: Bs, k, X, h => by
    cases k with
    | zero =>
      simp only [List.getElem?_cons_zero, Option.some.injEq] at h
      simp [tables, h]
    | succ k => simpa [tables] using tables_getElem zero f Xs Bs k X (by simpa using h)

/-- **C163, a pitfall.** Data sets beyond those of the fit are accepted: their tables are zero, as if every pair of errors were
dependent. -/
theorem C163_more_data_sets (n : Nat) (Xs : List (Nat × (Nat → Nat → K))) (Bs : List (Nat → Nat → Option K))
    (hsic : List (Option K) → List (Option K) → K) (k : Nat) (hk : k < Xs.length) (hB : Bs.length ≤ k) :
    (groupPValues n Xs Bs hsic)[k]? = some (fun _ _ => some 0) ∧ (groupRcdPValues n Xs Bs hsic)[k]? = some (fun _ _ => some 0) := by
  unfold groupPValues groupRcdPValues
  rw [tables_getElem _ _ Xs Bs k _ (List.getElem?_eq_getElem hk), tables_getElem _ _ Xs Bs k _ (List.getElem?_eq_getElem hk),
    List.getElem?_eq_none hB]
  exact ⟨rfl, rfl⟩

/-- **C163 (MultiGroupDirectLiNGAM).** There is one table per data set; the table of data set `k` tests the residuals of
data set `k` with the matrix of data set `k`. -/
theorem C163_group (n : Nat) (Xs : List (Nat × (Nat → Nat → K))) (Bs : List (Nat → Nat → K))
    (hsic : List (Option K) → List (Option K) → K) :
    (groupPValues n Xs (Bs.map (fun B i j => some (B i j))) hsic).length = Xs.length ∧
    ∀ (k m : Nat) (X B : Nat → Nat → K), Xs[k]? = some (m, X) → Bs[k]? = some B →
      ∃ P, (groupPValues n Xs (Bs.map (fun B i j => some (B i j))) hsic)[k]? = some P ∧
        PairTable n (some 0) P (fun i j => some (hsic ((List.range m).map (fun s => some (Utils.residual n B X s i)))
          ((List.range m).map (fun s => some (Utils.residual n B X s j))))) := by
  constructor
  · exact tables_length _ _ _ _
  · intro k m X B hX hB
    refine ⟨Utils.pValues n m (fun i j => some (B i j)) X hsic, ?_, ?_⟩
    · unfold groupPValues
      rw [tables_getElem _ _ _ _ k _ hX, List.getElem?_map, hB]
      rfl
    · obtain ⟨h1, h2, h3⟩ := Utils.C49_pvalues n m (fun i j => some (B i j)) X hsic
      refine ⟨h1, h2, fun i j hij hj => ?_⟩
      rw [h3 i j hij hj, Utils.errorColumn_eq (B' := B) (fun _ _ => rfl), Utils.errorColumn_eq (B' := B) (fun _ _ => rfl)]

/-- **C163 (MultiGroupRCD).** One table per data set; an entry is NaN exactly for a pair with a variable that touches a NaN
of the matrix of this data set, every other entry tests the residuals of this data set. -/
theorem C163_group_rcd (n : Nat) (Xs : List (Nat × (Nat → Nat → K))) (Bs : List (Nat → Nat → Option K))
    (hsic : List (Option K) → List (Option K) → K) :
    (groupRcdPValues n Xs Bs hsic).length = Xs.length ∧
    ∀ (k m : Nat) (X : Nat → Nat → K) (B : Nat → Nat → Option K), Xs[k]? = some (m, X) → Bs[k]? = some B →
      ∃ P, (groupRcdPValues n Xs Bs hsic)[k]? = some P ∧ (∀ i j, P i j = P j i) ∧ (∀ i, P i i = some 0) ∧
        ∀ i j, i < j → j < n →
          (P i j = none ↔ ∃ k, k < n ∧ (B i k = none ∨ B k i = none ∨ B j k = none ∨ B k j = none)) ∧
          ∀ p, P i j = some p →
            p = hsic ((List.range m).map (fun s => some (Utils.residual n (fun i j => (B i j).getD 0) X s i)))
              ((List.range m).map (fun s => some (Utils.residual n (fun i j => (B i j).getD 0) X s j))) := by
  constructor
  · exact tables_length _ _ _ _
  · intro k m X B hX hB
    refine ⟨Utils.pValuesNan n m B X hsic, ?_, ?_⟩
    · unfold groupRcdPValues
      rw [tables_getElem _ _ _ _ k _ hX, hB]
    · exact Utils.C49_pvalues_nan n m B (fun i j => (B i j).getD 0) (fun i j b hb => by simp [hb]) X hsic

/-! Concrete cases. -/

/-- Four samples of two variables at three times. -/
def twoPanel : Longitudinal.Panel ℚ := ⟨3, 4, 2, fun t s i => if (t + s + i) % 3 = 0 then 1 else if s = t then -1 else s⟩

/-- `LongitudinalLiNGAM(n_lags=L)` with regression coefficients 0, so that the residuals are the data. -/
def twoFit (L : Nat) (pk : Option (Nat → Nat → Nat → Nat → Int)) : Except Longitudinal.Err (Longitudinal.Obj ℚ) :=
  Longitudinal.fit ⟨fun _ _ _ _ _ => 0, .pwling, fun _ _ _ _ _ _ _ i => some i, fun _ _ _ _ _ _ => 1⟩
    { nLags := L, pk := pk } twoPanel

/-- The table entry `(t, i, j)`; the "p-value" is the first value of the second column. -/
def longEntry (r : Except Longitudinal.Err (Longitudinal.Obj ℚ)) (t i j : Nat) : Option (Option ℚ) :=
  r.toOption.bind (fun o => (longPValues 3 4 2 o (fun _ y => y.headD none)).toOption.map (fun P => P t i j))

/-- Times 0 (NaN), 1 (too early for two lags: columns of NaN), 2 (errors), and the diagonal. -/
example : longEntry (twoFit 2 none) 0 0 1 = some none ∧ longEntry (twoFit 2 none) 1 0 1 = some none ∧
    longEntry (twoFit 2 none) 2 0 1 ≠ some none ∧ longEntry (twoFit 2 none) 2 0 1 = longEntry (twoFit 2 none) 2 1 0 ∧
    longEntry (twoFit 2 none) 2 1 1 = some (some 0) := by decide +kernel

/-- With prior knowledge the fit succeeds and the tests do not. -/
example : (twoFit 1 (some (fun _ _ _ _ => -1))).toOption.isSome ∧
    longEntry (twoFit 1 (some (fun _ _ _ _ => -1))) 2 0 1 = none := by decide +kernel

/-- Two data sets with different matrices: the tables differ, each uses its own matrix. -/
example : (groupPValues 2 [(1, fun _ i => if i = 0 then 1 else 5), (1, fun _ i => if i = 0 then 2 else 7)]
      ([fun i j => if i = 1 ∧ j = 0 then 2 else 0, fun i j => if i = 1 ∧ j = 0 then 3 else 0].map
        (fun (B : Nat → Nat → ℚ) i j => some (B i j)))
      (fun _ y => (y.headD none).getD 0)).map (fun P => P 0 1) = [some 3, some 1] := by decide +kernel

/-- MultiGroupRCD: the second data set has a confounded pair. -/
example : (groupRcdPValues 2 [(1, fun _ i => if i = 0 then 1 else 5), (1, fun _ i => if i = 0 then 2 else 7)]
      [fun i j => if i = 1 ∧ j = 0 then some 2 else some 0, fun i j => if i = j then some 0 else none]
      (fun _ y => (y.headD none).getD (0 : ℚ))).map (fun P => P 0 1) = [some 3, none] := by decide +kernel

end Verif.ErrorTests
