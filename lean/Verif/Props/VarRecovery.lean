import Verif.Proofs.VarRecovery
import Verif.Props.Var
import Verif.Props.DirectData
import Mathlib.Tactic.Linarith

/-!
# VARLiNGAM: recovery of the structural matrices and dependence on the origin (C153, C154)

The series follows structural equations with present and past causes.  Whatever estimates the reduced form by least squares
and whatever LiNGAM method is right on the residuals, the reported matrices are the true ones.
-/
set_option linter.unusedSectionVars false
set_option autoImplicit false
namespace Verif.Var
open Finset Verif.Direct

variable {N : Nat}

/-- The outcome of the VAR estimation consists of least squares coefficients (without intercept) and their residuals. -/
structure FitByLs (n N : Nat) (X : Data ℚ) (f : VarFit ℚ) : Prop where
  lags : f.kAr = f.coefs.length
  rows : f.resid.rows = N
  size : N + f.coefs.length = X.rows
  resid : ∀ r, r < N → ∀ i, i < n →
    f.resid.val r i = innovation n f.coefs.length (lagFn1 f.coefs) X.val (r + f.coefs.length) i
  least : PlainLeastSquares n f.coefs.length N (fun k => lagFn1 f.coefs (k + 1)) X.val

/-- The LiNGAM method is right on data that follow the model with coefficients `B0` and errors `e`: it returns `B0` and an
order in which causes come first. -/
def LingamRight (n : Nat) (lingam : Data ℚ → List Nat × (Nat → Nat → ℚ)) (B0 : Nat → Nat → ℚ) (e : Nat → Fin N → ℚ) : Prop :=
  ∀ D : Data ℚ, D.rows = N → FollowsModel (range n) B0 (fun i r => D.val r i) e →
    IsOrder n (lingam D).1 ∧ (∀ i j, i < n → j < n → B0 i j ≠ 0 → Before (lingam D).1 j i) ∧
      ∀ i j, i < n → j < n → (lingam D).2 i j = B0 i j

theorem resid_follows {n : Nat} {X : Data ℚ} {f : VarFit ℚ} (hf : FitByLs n N X f) {B : Nat → Nat → Nat → ℚ}
    {e : Nat → Nat → ℚ} (hx : FollowsVar n f.coefs.length X.rows B X.val e)
    (ho : OrthogonalPast n f.coefs.length N X.val e) (hind : PastIndependent n f.coefs.length N X.val) :
    FollowsModel (N := N) (range n) (B 0) (fun i r => f.resid.val r i) (fun i r => e (r + f.coefs.length) i) := by
  intro i hi r
  have hi := mem_range.1 hi
  have h := (reduced_form hx hf.size ho hind hf.least).2 i hi r r.2
  beta_reduce
  rw [hf.resid r r.2 i hi]
  rw [sum_congr rfl fun j hj => by rw [hf.resid r r.2 j (mem_range.1 hj)]]
  exact h

theorem lagged_true {n : Nat} {X : Data ℚ} {f : VarFit ℚ} (hf : FitByLs n N X f) {B : Nat → Nat → Nat → ℚ}
    {e : Nat → Nat → ℚ} (hx : FollowsVar n f.coefs.length X.rows B X.val e)
    (ho : OrthogonalPast n f.coefs.length N X.val e) (hind : PastIndependent n f.coefs.length N X.val)
    {B0 : Nat → Nat → ℚ} (h0 : ∀ i j, i < n → j < n → B0 i j = B 0 i j) {k : Nat} (hk : k < f.coefs.length) {i j : Nat}
    (hi : i < n) (hj : j < n) : mm n (oneSub B0) (lagFn1 f.coefs (k + 1)) i j = B (k + 1) i j := by
  have h := (reduced_form hx hf.size ho hind hf.least).1 i hi k hk j hj
  rw [← h]
  show mv n (oneSub B0) (fun l => lagFn1 f.coefs (k + 1) l j) i = _
  rw [mv_oneSub n B0 _ hi]
  unfold mv
  rw [sum_congr rfl fun l hl => by rw [h0 i l hi (mem_range.1 hl)]]

/-- **C153.** The series follows structural equations with matrices `B 0, …, B p` at every time, the errors are orthogonal
to the past, the past values are linearly independent, the VAR part is estimated by least squares and the LiNGAM method is
right on the errors.  Then `fit` without pruning succeeds and reports exactly `B 0, …, B p`. -/
theorem C153_recovered (E : Env ℚ) (o : Obj ℚ) (X : Data ℚ) (ha : o.arCoefs = none) (hp : o.prune = false)
    {f : VarFit ℚ} (hest : estimateVar E o X = some f) (hf : FitByLs E.n N X f) {B : Nat → Nat → Nat → ℚ}
    {e : Nat → Nat → ℚ} (hx : FollowsVar E.n f.coefs.length X.rows B X.val e)
    (ho : OrthogonalPast E.n f.coefs.length N X.val e) (hind : PastIndependent E.n f.coefs.length N X.val)
    (hl : LingamRight (N := N) E.n E.lingam (B 0) (fun i r => e (r + f.coefs.length) i)) :
    ∃ o' order Bs, fit E o X = .ok o' ∧ o'.causalOrder = some order ∧ o'.adjacency = some Bs ∧
      Bs.length = f.coefs.length + 1 ∧ IsOrder E.n order ∧
      (∀ i j, i < E.n → j < E.n → B 0 i j ≠ 0 → Before order j i) ∧
      ∀ k, k ≤ f.coefs.length → ∀ i j, i < E.n → j < E.n → lagFn Bs k i j = B k i j := by
  obtain ⟨h1, h2, h3⟩ := hl f.resid hf.rows (resid_follows hf hx ho hind)
  have hfit : fit E o X = .ok { o with
      arCoefs := some f.coefs, lags := f.kAr, residuals := some f.resid,
      causalOrder := some (E.lingam f.resid).1, adjacency := some (calcB E.n (E.lingam f.resid).2 f.coefs) } := by
    simp [fit, arPart, ha, hest, lagMatrices, hp]
  refine ⟨_, _, _, hfit, rfl, rfl, calcB_length _ _ _, h1, h2, ?_⟩
  intro k hk i j hi hj
  cases k with
  | zero => exact h3 i j hi hj
  | succ k =>
    rw [lagFn_calcB_succ _ _ _ (by omega)]
    exact lagged_true hf hx ho hind h3 (by omega) hi hj

/-- **C153**, with pruning: the errors are in addition uncorrelated with the past and with each other, the past values are
independent also of a constant, and the regression with selection keeps all true causes. -/
theorem C153_pruned (E : Env ℚ) (o : Obj ℚ) (X : Data ℚ) (ha : o.arCoefs = none) (hp : o.prune = true)
    {f : VarFit ℚ} (hest : estimateVar E o X = some f) (hf : FitByLs E.n N X f) (hlags : f.coefs.length = o.lags)
    (hpos : 1 ≤ o.lags) {B : Nat → Nat → Nat → ℚ}
    {e : Nat → Nat → ℚ} (hx : FollowsVar E.n f.coefs.length X.rows B X.val e)
    (ho : OrthogonalPast E.n f.coefs.length N X.val e) (hu : UncorrelatedPast E.n f.coefs.length N X.val e)
    (hind : PastIndependentC E.n f.coefs.length N X.val)
    (hg : GoodErrors (N := N) E.n (fun i r => e (r + f.coefs.length) i))
    (hl : LingamRight (N := N) E.n E.lingam (B 0) (fun i r => e (r + f.coefs.length) i)) (hs : SelectsRight E.lasso) :
    ∃ o' order Bs, fit E o X = .ok o' ∧ o'.causalOrder = some order ∧ o'.adjacency = some Bs ∧
      Bs.length = f.coefs.length + 1 ∧
      ∀ k, k ≤ f.coefs.length → ∀ i j, i < E.n → j < E.n → lagFn Bs k i j = B k i j := by
  have hind0 : PastIndependent E.n f.coefs.length N X.val := fun d h => hind d 0 h
  obtain ⟨h1, h2, h3⟩ := hl f.resid hf.rows (resid_follows hf hx ho hind0)
  have hlag : lagMatrices E o X f.coefs (E.lingam f.resid).1 (E.lingam f.resid).2 =
      .ok ((List.range E.n).foldl (pruneStep E.n E.lasso X o.lags (E.lingam f.resid).1)
        (calcB E.n (E.lingam f.resid).2 f.coefs)) := by
    unfold lagMatrices pruning
    rw [if_pos hp, if_neg]
    rw [calcB_length]
    omega
  generalize hBs : (List.range E.n).foldl (pruneStep E.n E.lasso X o.lags (E.lingam f.resid).1)
        (calcB E.n (E.lingam f.resid).2 f.coefs) = Bs at hlag
  have hfit : fit E o X = .ok { o with
      arCoefs := some f.coefs, lags := f.kAr, residuals := some f.resid,
      causalOrder := some (E.lingam f.resid).1, adjacency := some Bs } := by
    simp [fit, arPart, ha, hest, hlag]
  obtain ⟨hlen, hz, hk⟩ := lagMatrices_ok hlag
  refine ⟨_, _, Bs, hfit, rfl, rfl, hlen, ?_⟩
  have hsize := hf.size
  have hnb : nBlocks X o.lags = N := by unfold nBlocks; rw [if_neg (by omega)]; omega
  -- the regression of one variable
  have hreg : ∀ i, i < E.n → ∀ c, c < (E.lingam f.resid).1.idxOf i + E.n * f.coefs.length →
      prunedRow E.n E.lasso X o.lags (E.lingam f.resid).1 i c =
        trueCoef E.n B ((E.lingam f.resid).1.take ((E.lingam f.resid).1.idxOf i)) i c := by
    intro i hi c hc
    have him : i ∈ (E.lingam f.resid).1 := (h1.2 i).2 hi
    have hlt : (E.lingam f.resid).1.idxOf i < (E.lingam f.resid).1.length := List.idxOf_lt_length_iff.2 him
    have hsplit : (E.lingam f.resid).1 = (E.lingam f.resid).1.take ((E.lingam f.resid).1.idxOf i) ++
        i :: (E.lingam f.resid).1.drop ((E.lingam f.resid).1.idxOf i + 1) := by
      conv_lhs => rw [← List.take_append_drop ((E.lingam f.resid).1.idxOf i) (E.lingam f.resid).1]
      rw [List.drop_eq_getElem_cons hlt, List.getElem_idxOf hlt]
    have htl : ((E.lingam f.resid).1.take ((E.lingam f.resid).1.idxOf i)).length = (E.lingam f.resid).1.idxOf i := by
      rw [List.length_take]; omega
    unfold prunedRow
    rw [hnb]
    refine pruned_exact hx hsize hg hu hind h1 h2 hs hi hsplit ?_ ?_ c (by rw [htl]; exact hc)
    · intro r hr
      unfold objVec
      rw [stacked_eq (by omega)]
      rfl
    · intro r hr
      rw [expLoop_eq _ _ _ _ (by omega)]
      unfold expRow
      rw [hlags]
      congr 1
      · apply List.map_congr_left
        intro c _
        rw [stacked_eq (by omega)]
        rfl
      · apply List.flatMap_congr
        intro k hk
        rw [List.mem_range] at hk
        apply List.map_congr_left
        intro c _
        rw [stacked_eq (by omega)]
  intro k hkl i j hi hj
  have htl : ((E.lingam f.resid).1.take ((E.lingam f.resid).1.idxOf i)).length = (E.lingam f.resid).1.idxOf i := by
    rw [List.length_take]
    have := List.idxOf_lt_length_iff.2 ((h1.2 i).2 hi)
    omega
  cases k with
  | zero =>
    rw [hz i hi j]
    split
    · rename_i hc
      have hlt := List.idxOf_lt_length_iff.2 hc.2
      rw [hreg i hi _ (by omega)]
      unfold trueCoef
      rw [if_pos hlt]
      congr 1
      rw [List.getD, List.getElem?_eq_getElem hlt, List.getElem_idxOf hlt]
      rfl
    · exact h3 i j hi hj
  | succ k =>
    rw [hk i hi k (by omega), if_pos hp]
    have hb : E.n * k + j < E.n * f.coefs.length := by
      have : E.n * (k + 1) ≤ E.n * f.coefs.length := Nat.mul_le_mul_left _ (by omega)
      rw [Nat.mul_succ] at this
      omega
    rw [hreg i hi _ (by omega)]
    unfold trueCoef
    rw [if_neg (by omega), htl, Nat.add_assoc, Nat.add_sub_cancel_left, Nat.mul_add_div (by omega), Nat.div_eq_of_lt hj,
      Nat.mul_add_mod, Nat.mod_eq_of_lt hj, Nat.add_zero]

/-- lingam/var_lingam.py:53-55, 101: `DirectLiNGAM` as the LiNGAM model (the default), applied to the residual matrix.
`select` and `ols` are the regressions on the data at hand. -/
def directLingam (cfg : Direct.Config) (num : Numerics N) (gpu : Score) (select : (Nat → Fin N → ℚ) → List Nat → Nat → Nat → Bool)
    (ols : (Nat → Fin N → ℚ) → Ols) (n : Nat) (D : Data ℚ) : List Nat × (Nat → Nat → ℚ) :=
  match fitData cfg num gpu id (select fun i r => D.val r i) (ols fun i r => D.val r i) n (fun i (r : Fin N) => D.val r i) with
  | .ok q => q
  | .error _ => ([], fun _ _ => 0)

/-- **C153**, the default LiNGAM model: DirectLiNGAM is right on the residuals as soon as its pairwise statistic is right for
the instantaneous model and its regressions are least squares that keep all true parents. -/
theorem C153_direct {cfg : Direct.Config} (hs : cfg.soft = false) (hm : cfg.measure = .pwling) {num : Numerics N}
    (gpu : Score) {select : (Nat → Fin N → ℚ) → List Nat → Nat → Nat → Bool} {ols : (Nat → Fin N → ℚ) → Ols} {n : Nat}
    {B0 : Nat → Nat → ℚ} {e : Nat → Fin N → ℚ} (he : GoodErrors n e) (hc : Compatible cfg n B0)
    (hr : PwlingRight num n B0 e)
    (hreg : ∀ Y, FollowsModel (range n) B0 Y e → RegressionRight n B0 Y (select Y) (ols Y)) (hz : ZerosTrue cfg n B0) :
    LingamRight n (directLingam cfg num gpu select ols n) B0 e := by
  intro D _ hD
  obtain ⟨order, Bh, h1, h2, h3⟩ := C93_order_recovered_pwling hs hm gpu (select fun i r => D.val r i)
    (ols fun i r => D.val r i) he hD hc hr
  obtain ⟨order', Bh', h4, h5⟩ := C94_coefficients_recovered hs hm gpu he hD hc hr (hreg _ hD) hz
  rw [h1] at h4
  injection h4 with h4
  injection h4 with h6 h7
  subst h7
  unfold directLingam
  rw [h1]
  exact ⟨h2, h3, h5⟩

/-! ### C154: the origin of measurement -/

/-- The same series measured from another origin. -/
def shift (X : Data ℚ) (s : Nat → ℚ) : Data ℚ := ⟨X.rows, fun t i => X.val t i + s i⟩

/-- **C154 is violated**, for every one-variable series: the VAR part is estimated without an intercept
(lingam/var_lingam.py:318, 325), so unless the reported lag coefficient is exactly one, measuring the series from an origin
one unit lower or one unit higher changes it. -/
theorem C154_origin_violated (E : Env ℚ) (o : Obj ℚ) (X : Data ℚ) (hn : E.n = 1) (ha : o.arCoefs = none)
    (hp : o.prune = false) (hc : o.useCriterion = false) (hN : 1 ≤ N)
    (hls : ∀ s : ℚ, FitByLs 1 N (shift X fun _ => s) (E.var (shift X fun _ => s) o.lags) ∧
      (E.var (shift X fun _ => s) o.lags).coefs.length = 1)
    (hl : ∀ D, (E.lingam D).2 0 0 = 0) :
    ∃ b : ℚ → ℚ, (∀ s, ∃ o' Bs, fit E o (shift X fun _ => s) = .ok o' ∧ o'.adjacency = some Bs ∧ lagFn Bs 1 0 0 = b s) ∧
      (b 0 ≠ 1 → b 1 ≠ b 0 ∨ b (-1) ≠ b 0) := by
  set a : ℚ → ℚ := fun s => lagFn1 (E.var (shift X fun _ => s) o.lags).coefs 1 0 0 with hadef
  refine ⟨a, fun s => ?_, ?_⟩
  · refine ⟨_, calcB E.n (E.lingam (E.var (shift X fun _ => s) o.lags).resid).2 (E.var (shift X fun _ => s) o.lags).coefs,
      by simp [fit, arPart, ha, estimateVar, hc, lagMatrices, hp]; rfl, rfl, ?_⟩
    rw [lagFn_calcB_succ _ _ _ (by rw [(hls s).2]; omega)]
    show mm E.n _ _ 0 0 = _
    rw [hn]
    simp [mm, oneSub, hl, hadef]
  · intro hb
    by_contra hcon
    push Not at hcon
    have key : ∀ s, ∑ r ∈ range N, ((X.val (r + 1) 0 + s) - a s * (X.val r 0 + s)) * (X.val r 0 + s) = 0 := by
      intro s
      have h := (hls s).1.least 0 (by omega) 0 (by rw [(hls s).2]; omega) 0 (by omega)
      rw [(hls s).2] at h
      simpa [past, shift, hadef] using h
    have k0 := key 0
    have k1 := key 1
    have k2 := key (-1)
    rw [hcon.1] at k1
    rw [hcon.2] at k2
    have hsum : ∑ r ∈ range N, (((X.val (r + 1) 0 + 1) - a 0 * (X.val r 0 + 1)) * (X.val r 0 + 1) +
        ((X.val (r + 1) 0 + -1) - a 0 * (X.val r 0 + -1)) * (X.val r 0 + -1) -
        2 * (((X.val (r + 1) 0 + 0) - a 0 * (X.val r 0 + 0)) * (X.val r 0 + 0))) = 0 := by
      rw [sum_sub_distrib, sum_add_distrib, ← mul_sum, k0, k1, k2]
      norm_num
    have hc2 : ∑ r ∈ range N, (((X.val (r + 1) 0 + 1) - a 0 * (X.val r 0 + 1)) * (X.val r 0 + 1) +
        ((X.val (r + 1) 0 + -1) - a 0 * (X.val r 0 + -1)) * (X.val r 0 + -1) -
        2 * (((X.val (r + 1) 0 + 0) - a 0 * (X.val r 0 + 0)) * (X.val r 0 + 0))) = N * (2 - 2 * a 0) := by
      rw [sum_congr rfl (fun r _ => (by ring : _ = 2 - 2 * a 0)), sum_const, card_range, nsmul_eq_mul]
    rw [hc2] at hsum
    have hN0 : (N : ℚ) ≠ 0 := by exact_mod_cast (by omega : N ≠ 0)
    rcases mul_eq_zero.1 hsum with h | h
    · exact hN0 h
    · exact hb (by linarith)

/-- The LiNGAM method does not look at the origin of its columns. -/
def LingamShift (n : Nat) (lingam : Data ℚ → List Nat × (Nat → Nat → ℚ)) : Prop :=
  ∀ (D D' : Data ℚ) (s : Nat → ℚ), D'.rows = D.rows →
    (∀ r, r < D.rows → ∀ i, i < n → D'.val r i = D.val r i + s i) → lingam D' = lingam D

/-- The regression with selection does not look at the origin of the regressand and the columns. -/
def RegressionShift (reg : Nat → (Nat → List ℚ) → (Nat → ℚ) → Nat → ℚ) : Prop :=
  ∀ (N : Nat) (rows rows' : Nat → List ℚ) (y y' : Nat → ℚ) (s : Nat → ℚ) (q : ℚ),
    (∀ r, r < N → y' r = y r + q) → (∀ r, r < N → (rows' r).length = (rows r).length) →
    (∀ r, r < N → ∀ c, c < (rows r).length → column rows' c r = column rows c r + s c) → reg N rows' y' = reg N rows y

/-- **C154**, what holds: with autoregressive coefficients given by the user (so that nothing is estimated without an
intercept), no pruning and a LiNGAM method that does not look at the origin, neither order nor matrices depend on the
origin.  Missing: the default, where the VAR part is estimated; there the claim fails. -/
theorem C154_given_partial (E : Env ℚ) (o : Obj ℚ) (X : Data ℚ) {Ms : List (Nat → Nat → ℚ)} (ha : o.arCoefs = some Ms)
    (hp : o.prune = false) (hl : LingamShift E.n E.lingam) (s : Nat → ℚ) :
    ∃ o' o'', fit E o X = .ok o' ∧ fit E o (shift X s) = .ok o'' ∧ o''.causalOrder = o'.causalOrder ∧
      o''.adjacency = o'.adjacency := by
  have hres := hl (calcResiduals E.n X Ms Ms.length) (calcResiduals E.n (shift X s) Ms Ms.length)
    (fun i => s i - ∑ k ∈ range Ms.length, ∑ j ∈ range E.n, lagFn1 Ms (k + 1) i j * s j) rfl (by
      intro r _ i _
      rw [calcResiduals_val, calcResiduals_val]
      unfold innovation shift
      simp only [mul_add, sum_add_distrib]
      ring)
  exact ⟨_, _, by simp [fit, arPart, ha, lagMatrices, hp]; rfl, by simp [fit, arPart, ha, lagMatrices, hp]; rfl,
    by simp only [hres], by simp only [hres]⟩

theorem expRow_length {K : Type} [Field K] [LinearOrder K] (n : Nat) (X : Data K) (lags : Nat) (anc : List Nat) (r : Nat) :
    (expRow n X lags anc r).length = anc.length + n * lags := by
  unfold expRow
  rw [List.length_append, List.length_map, past_len (fun k j => stacked X (k + 1) r j) n lags]

theorem expRow_getD {K : Type} [Field K] [LinearOrder K] (n : Nat) (X : Data K) (lags : Nat) (anc : List Nat) (r : Nat) {c : Nat}
    (hc : c < anc.length + n * lags) : (expRow n X lags anc r).getD c 0 =
      if c < anc.length then stacked X 0 r (anc.getD c 0)
      else stacked X ((c - anc.length) / n + 1) r ((c - anc.length) % n) := by
  unfold expRow
  split
  · rename_i hlt
    rw [List.getD, List.getElem?_append_left (by simpa using hlt)]
    simp [hlt]
  · rename_i hge
    have hn0 : 0 < n := by
      rcases Nat.eq_zero_or_pos n with h | h
      · subst h; omega
      · exact h
    rw [List.getD, List.getElem?_append_right (by simpa using (by omega : anc.length ≤ c)), List.length_map]
    have hk : (c - anc.length) / n < lags := by
      rw [Nat.div_lt_iff_lt_mul hn0, Nat.mul_comm]; omega
    have := past_get (fun k => stacked X (k + 1) r) n (Nat.mod_lt (c - anc.length) hn0) hk
    rw [Nat.div_add_mod] at this
    exact this

theorem pruneStep_shift {n : Nat} {lasso : Lasso ℚ} (hr : RegressionShift lasso) (X : Data ℚ) (s : Nat → ℚ) (lags : Nat)
    (order : List Nat) (Bs : List (Nat → Nat → ℚ)) (i : Nat) :
    pruneStep n lasso (shift X s) lags order Bs i = pruneStep n lasso X lags order Bs i := by
  have h : lasso (nBlocks (shift X s) lags) (expLoop n (shift X s) lags (order.take (order.idxOf i))) (objVec (shift X s) i) =
      lasso (nBlocks X lags) (expLoop n X lags (order.take (order.idxOf i))) (objVec X i) := by
    have hnb : nBlocks (shift X s) lags = nBlocks X lags := rfl
    rw [hnb]
    have e1 : ∀ r, r < nBlocks X lags → expLoop n X lags (order.take (order.idxOf i)) r =
        expRow n X lags (order.take (order.idxOf i)) r := fun r hr => expLoop_eq _ _ _ _ hr
    have e2 : ∀ r, r < nBlocks X lags → expLoop n (shift X s) lags (order.take (order.idxOf i)) r =
        expRow n (shift X s) lags (order.take (order.idxOf i)) r := fun r hr => expLoop_eq _ _ _ _ hr
    refine hr _ _ _ _ _ (fun c => if c < (order.take (order.idxOf i)).length then s ((order.take (order.idxOf i)).getD c 0)
      else s ((c - (order.take (order.idxOf i)).length) % n)) (s i) ?_ ?_ ?_
    · intro r _; rfl
    · intro r hr
      rw [e1 r hr, e2 r hr, expRow_length, expRow_length]
    · intro r hr c hc
      unfold column
      rw [e1 r hr, expRow_length] at hc
      rw [e1 r hr, e2 r hr, expRow_getD _ _ _ _ _ hc, expRow_getD _ _ _ _ _ hc]
      split <;> rfl
  unfold pruneStep
  simp only [h]

/-- **C154** with pruning, what holds: the pruning regressions have an intercept, so with given coefficients and a LiNGAM
method and a regression that do not look at the origin, the pruned result does not depend on the origin either. -/
theorem C154_pruned_partial (E : Env ℚ) (o : Obj ℚ) (X : Data ℚ) {Ms : List (Nat → Nat → ℚ)} (ha : o.arCoefs = some Ms)
    (hp : o.prune = true) (hlags : Ms.length ≤ o.lags) (hl : LingamShift E.n E.lingam) (hr : RegressionShift E.lasso)
    (s : Nat → ℚ) :
    ∃ o' o'', fit E o X = .ok o' ∧ fit E o (shift X s) = .ok o'' ∧ o''.causalOrder = o'.causalOrder ∧
      o''.adjacency = o'.adjacency := by
  have hres := hl (calcResiduals E.n X Ms Ms.length) (calcResiduals E.n (shift X s) Ms Ms.length)
    (fun i => s i - ∑ k ∈ range Ms.length, ∑ j ∈ range E.n, lagFn1 Ms (k + 1) i j * s j) rfl (by
      intro r _ i _
      rw [calcResiduals_val, calcResiduals_val]
      unfold innovation shift
      simp only [mul_add, sum_add_distrib]
      ring)
  have hneg : ¬ (0 < E.n ∧ o.lags < Ms.length + 1 - 1) := by omega
  have hpr : pruneStep E.n E.lasso (shift X s) o.lags = pruneStep E.n E.lasso X o.lags := by
    funext order Bs i; exact pruneStep_shift hr X s o.lags order Bs i
  have h1 : fit E o X = .ok { o with
      arCoefs := some Ms, lags := Ms.length, residuals := some (calcResiduals E.n X Ms Ms.length),
      causalOrder := some (E.lingam (calcResiduals E.n X Ms Ms.length)).1,
      adjacency := some ((List.range E.n).foldl (pruneStep E.n E.lasso X o.lags
        (E.lingam (calcResiduals E.n X Ms Ms.length)).1) (calcB E.n (E.lingam (calcResiduals E.n X Ms Ms.length)).2 Ms)) } := by
    simp only [fit, arPart, ha, lagMatrices, hp, if_true, pruning, calcB_length, if_neg hneg]
  have h2 : fit E o (shift X s) = .ok { o with
      arCoefs := some Ms, lags := Ms.length, residuals := some (calcResiduals E.n (shift X s) Ms Ms.length),
      causalOrder := some (E.lingam (calcResiduals E.n X Ms Ms.length)).1,
      adjacency := some ((List.range E.n).foldl (pruneStep E.n E.lasso X o.lags
        (E.lingam (calcResiduals E.n X Ms Ms.length)).1) (calcB E.n (E.lingam (calcResiduals E.n X Ms Ms.length)).2 Ms)) } := by
    simp only [fit, arPart, ha, lagMatrices, hp, if_true, pruning, calcB_length, if_neg hneg, hres, hpr]
  exact ⟨_, _, h1, h2, rfl, rfl⟩

/-! ### Concrete cases -/

/-- Two variables, one lag: `x0(t) = -x1(t-1) + e0(t)`, `x1(t) = x0(t) + e1(t)`. -/
def rcB : Nat → Nat → Nat → ℚ := fun k i j =>
  if k = 0 ∧ i = 1 ∧ j = 0 then 1 else if k = 1 ∧ i = 0 ∧ j = 1 then -1 else 0

/-- Six observations. -/
def rcVal : Nat → Nat → ℚ := fun t i =>
  if i = 0 then ([-1, 2, -1, 0, 0, -2] : List ℚ).getD t 0 else ([-1, 1, -1, 1, 1, -3] : List ℚ).getD t 0

def rcSeries : Data ℚ := ⟨6, rcVal⟩

/-- Their errors. -/
def rcErr : Nat → Nat → ℚ := fun t i =>
  if i = 0 then ([0, 1, 0, -1, 1, -1] : List ℚ).getD t 0 else ([0, -1, 0, 1, 1, -1] : List ℚ).getD t 0

/-- The reduced form coefficients. -/
def rcM : Nat → Nat → ℚ := fun i j => if i < 2 ∧ j = 1 then -1 else 0

def rcFit : VarFit ℚ := ⟨[rcM], 1, ⟨5, fun r i => innovation 2 1 (lagFn1 [rcM]) rcVal (r + 1) i⟩, none⟩

theorem rcFit_ls : FitByLs 2 5 rcSeries rcFit where
  lags := rfl
  rows := rfl
  size := rfl
  resid := fun _ _ _ _ => rfl
  least := by
    show PlainLeastSquares 2 1 5 (fun k => lagFn1 [rcM] (k + 1)) rcVal
    unfold PlainLeastSquares; decide +kernel

theorem rcFollows : FollowsVar 2 1 6 rcB rcVal rcErr := by
  intro t h1 h2
  have : ∀ t, t < 6 → 1 ≤ t → ∀ i, i < 2 →
      rcVal t i = (∑ k ∈ range (1 + 1), ∑ j ∈ range 2, rcB k i j * rcVal (t - k) j) + rcErr t i := by decide +kernel
  exact this t h2 h1

theorem rcOrth : OrthogonalPast 2 1 5 rcVal rcErr := by unfold OrthogonalPast; decide +kernel

theorem rcUncorr : UncorrelatedPast 2 1 5 rcVal rcErr := by unfold UncorrelatedPast Uncorrelated; decide +kernel

theorem rcIndC : PastIndependentC 2 1 5 rcVal := by
  intro d a h
  have h0 := h 0 (by omega)
  have h1 := h 1 (by omega)
  have h3 := h 3 (by omega)
  simp [past, rcVal, sum_range_succ] at h0 h1 h3
  have hd0 : d 0 0 = 0 := by linarith
  have hd1 : d 0 1 = 0 := by linarith
  intro k hk j hj
  obtain rfl : k = 0 := by omega
  rcases (by omega : j = 0 ∨ j = 1) with rfl | rfl
  · exact hd0
  · exact hd1

theorem rcGood : GoodErrors (N := 5) 2 (fun i r => rcErr (r + 1) i) := by
  refine ⟨?_, ?_⟩
  · intro i j hi hj
    have : ∀ i, i < 2 → ∀ j, j < 2 → i ≠ j →
        Uncorrelated (N := 5) (fun r => rcErr (r + 1) i) (fun r => rcErr (r + 1) j) := by
      unfold Uncorrelated; decide +kernel
    exact this i hi j hj
  · unfold NonConstant; decide +kernel

/-- Least squares without selection is a regression with the required property. -/
theorem exists_selectsRight : ∃ reg, SelectsRight reg := by
  classical
  refine ⟨fun N rows y c => if h : ∃ b : Nat → ℚ, ∀ c, c < (rows 0).length →
      Uncorrelated (fun r : Fin N => y r - ∑ c ∈ range (rows 0).length, b c * column rows c r)
        (fun r : Fin N => column rows c r) then (if c < (rows 0).length ∧ 0 < N then h.choose c else 0) else 0, ?_⟩
  intro N w rows y b hlen hb
  refine ⟨range w, Subset.rfl, fun c hc _ => mem_range.2 hc, ?_, ?_⟩
  · intro c hc
    beta_reduce
    split
    · rw [if_neg]
      rintro ⟨h1, h2⟩
      rw [hlen 0 h2] at h1
      exact hc (mem_range.2 h1)
    · rfl
  · intro c hc
    rcases Nat.eq_zero_or_pos N with rfl | hN
    · unfold Uncorrelated; simp
    · have hw := hlen 0 hN
      have hex : ∃ b : Nat → ℚ, ∀ c, c < (rows 0).length →
        Uncorrelated (fun r : Fin N => y r - ∑ c ∈ range (rows 0).length, b c * column rows c r)
          (fun r : Fin N => column rows c r) := ⟨b, by rw [hw]; exact hb⟩
      have hsp := hex.choose_spec c (by rw [hw]; exact mem_range.1 hc)
      have : ∀ r : Fin N, ∑ c ∈ range w, (if h : ∃ b : Nat → ℚ, ∀ c, c < (rows 0).length →
          Uncorrelated (fun r : Fin N => y r - ∑ c ∈ range (rows 0).length, b c * column rows c r)
          (fun r : Fin N => column rows c r) then (if c < (rows 0).length ∧ 0 < N then h.choose c else 0) else 0) *
            column rows c r = ∑ c ∈ range (rows 0).length, hex.choose c * column rows c r := by
        intro r
        refine sum_congr (by rw [hw]) fun c hc => ?_
        have hcl : c < (rows 0).length ∧ 0 < N := ⟨mem_range.1 hc, hN⟩
        rw [dif_pos hex, if_pos hcl]
      simp only [this]
      exact hsp

/-- All hypotheses of C153 hold for this series, with and without pruning. -/
example (reg : Nat → (Nat → List ℚ) → (Nat → ℚ) → Nat → ℚ) (hreg : SelectsRight reg) (pr : Bool) :
    ∃ o' Bs, fit (⟨2, fun _ _ => rcFit, fun _ => ([0, 1], rcB 0), reg⟩ : Env ℚ) ⟨none, 1, false, pr, none, none, none⟩
      rcSeries = .ok o' ∧ o'.adjacency = some Bs ∧
      ∀ k, k ≤ 1 → ∀ i j, i < 2 → j < 2 → lagFn Bs k i j = rcB k i j := by
  have hl : LingamRight (N := 5) 2 (fun _ => ([0, 1], rcB 0)) (rcB 0) (fun i r => rcErr (r + 1) i) := by
    intro D _ _
    refine ⟨⟨by simp, fun i => by simp; omega⟩, ?_, fun _ _ _ _ => rfl⟩
    intro i j hi hj hB
    rcases (by omega : i = 0 ∨ i = 1) with rfl | rfl <;> rcases (by omega : j = 0 ∨ j = 1) with rfl | rfl <;>
      simp [rcB] at hB
    exact ⟨[], [], [], rfl⟩
  cases pr with
  | false =>
    obtain ⟨o', _, Bs, h1, _, h2, _, _, _, h3⟩ := C153_recovered (N := 5) (f := rcFit)
      (⟨2, fun _ _ => rcFit, fun _ => ([0, 1], rcB 0), reg⟩ : Env ℚ) ⟨none, 1, false, false, none, none, none⟩ rcSeries rfl rfl
      rfl rcFit_ls rcFollows rcOrth (fun d h => rcIndC d 0 h) hl
    exact ⟨o', Bs, h1, h2, h3⟩
  | true =>
    obtain ⟨o', _, Bs, h1, _, h2, _, h3⟩ := C153_pruned (N := 5) (f := rcFit)
      (⟨2, fun _ _ => rcFit, fun _ => ([0, 1], rcB 0), reg⟩ : Env ℚ) ⟨none, 1, false, true, none, none, none⟩ rcSeries rfl rfl
      rfl rcFit_ls rfl le_rfl rcFollows rcOrth rcUncorr rcIndC rcGood hl hreg
    exact ⟨o', Bs, h1, h2, h3⟩

/-- The reported matrices of the example, computed. -/
example : (((fit (⟨2, fun _ _ => rcFit, fun _ => ([0, 1], rcB 0), fun _ _ _ _ => 0⟩ : Env ℚ)
    ⟨none, 1, false, false, none, none, none⟩ rcSeries).toOption.bind (·.adjacency)).map
      (fun Bs => (List.range 2).map fun k => (List.range 2).map fun i => (List.range 2).map fun j => lagFn Bs k i j)) =
    some [[[0, 0], [1, 0]], [[0, -1], [0, 0]]] := by decide +kernel

/-- Least squares without intercept for one variable and one lag. -/
def onePlain (X : Data ℚ) : VarFit ℚ :=
  let c := (∑ r ∈ range (X.rows - 1), X.val (r + 1) 0 * X.val r 0) / ∑ r ∈ range (X.rows - 1), X.val r 0 * X.val r 0
  ⟨[fun _ _ => c], 1, ⟨X.rows - 1, fun r i => innovation 1 1 (lagFn1 [fun _ _ => c]) X.val (r + 1) i⟩, none⟩

theorem onePlain_ls (X : Data ℚ) (h : N + 1 = X.rows) : FitByLs 1 N X (onePlain X) where
  lags := rfl
  rows := by show X.rows - 1 = N; omega
  size := h
  resid := fun _ _ _ _ => rfl
  least := by
    have hN : X.rows - 1 = N := by omega
    intro i hi k hk j hj
    obtain rfl : i = 0 := by omega
    obtain rfl : j = 0 := by omega
    obtain rfl : k = 0 := by have : k < 1 := hk; omega
    show ∑ r ∈ range N, (X.val (r + 1) 0 - ∑ l ∈ range 1, ∑ m ∈ range 1, lagFn1 (onePlain X).coefs (l + 1) 0 m *
      past 1 X.val l m r) * past 1 X.val 0 0 r = 0
    have hp : ∀ r, past 1 X.val 0 0 r = X.val r 0 := fun r => rfl
    simp only [sum_range_one, hp]
    set c := lagFn1 (onePlain X).coefs (0 + 1) 0 0 with hcdef
    have hc : c = (∑ r ∈ range N, X.val (r + 1) 0 * X.val r 0) / ∑ r ∈ range N, X.val r 0 * X.val r 0 := by
      rw [hcdef, ← hN]; rfl
    have hsplit : ∑ r ∈ range N, (X.val (r + 1) 0 - c * X.val r 0) * X.val r 0 =
        ∑ r ∈ range N, X.val (r + 1) 0 * X.val r 0 - c * ∑ r ∈ range N, X.val r 0 * X.val r 0 := by
      rw [mul_sum, ← sum_sub_distrib]
      exact sum_congr rfl fun r _ => by ring
    rw [hsplit, hc]
    by_cases hz : ∑ r ∈ range N, X.val r 0 * X.val r 0 = 0
    · have h0 : ∀ r ∈ range N, X.val r 0 = 0 := fun r hr =>
        mul_self_eq_zero.1 ((sum_eq_zero_iff_of_nonneg (fun r _ => mul_self_nonneg (X.val r 0))).1 hz r hr)
      rw [hz, mul_zero, sub_zero]
      exact sum_eq_zero fun r hr => by rw [h0 r hr, mul_zero]
    · rw [div_mul_cancel₀ _ hz, sub_self]

/-- The series `1, 2, 1`: all hypotheses of C154_origin_violated hold, and the coefficient is `4/5`, not `1`; measured from an
origin one unit lower it is `12/13`. -/
example : ∃ b : ℚ → ℚ, (∀ s, ∃ o' Bs, fit (⟨1, fun X _ => onePlain X, fun _ => ([0], fun _ _ => 0), fun _ _ _ _ => 0⟩ : Env ℚ)
      ⟨none, 1, false, false, none, none, none⟩ (shift ⟨3, fun t _ => ([1, 2, 1] : List ℚ).getD t 0⟩ fun _ => s) = .ok o' ∧
      o'.adjacency = some Bs ∧ lagFn Bs 1 0 0 = b s) ∧ (b 0 ≠ 1 → b 1 ≠ b 0 ∨ b (-1) ≠ b 0) :=
  C154_origin_violated (N := 2) _ _ _ rfl rfl rfl rfl (by omega) (fun s => ⟨onePlain_ls _ rfl, rfl⟩) (fun _ => rfl)

example : lagFn1 (onePlain ⟨3, fun t _ => ([1, 2, 1] : List ℚ).getD t 0⟩).coefs 1 0 0 = 4 / 5 ∧
    lagFn1 (onePlain (shift ⟨3, fun t _ => ([1, 2, 1] : List ℚ).getD t 0⟩ fun _ => 1)).coefs 1 0 0 = 12 / 13 := by
  decide +kernel

/-- A LiNGAM method and a regression that do not look at the origin: those that return a constant, for instance; with given
coefficients the result of `fit` is then the same from every origin. -/
example (s : Nat → ℚ) : ∃ o' o'', fit (⟨2, fun _ _ => rcFit, fun _ => ([0, 1], rcB 0), fun _ _ _ _ => 0⟩ : Env ℚ)
      ⟨some [rcM], 1, false, true, none, none, none⟩ rcSeries = .ok o' ∧
    fit (⟨2, fun _ _ => rcFit, fun _ => ([0, 1], rcB 0), fun _ _ _ _ => 0⟩ : Env ℚ)
      ⟨some [rcM], 1, false, true, none, none, none⟩ (shift rcSeries s) = .ok o'' ∧
    o''.causalOrder = o'.causalOrder ∧ o''.adjacency = o'.adjacency :=
  C154_pruned_partial _ _ _ rfl rfl le_rfl (fun _ _ _ _ _ => rfl) (fun _ _ _ _ _ _ _ _ _ _ => rfl) s

end Verif.Var
