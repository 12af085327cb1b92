import Mathlib.Tactic.LinearCombination
import Mathlib.Tactic.Linarith
import Verif.Proofs.Var
import Verif.Props.Paths
import Mathlib.Algebra.Order.Field.Rat

/-!
Properties of `VARLiNGAM` (C36 – C38, C62 – C67).

`lagFn Bs k` is the matrix of lag `k` (`adjacency_matrices_[k]`), `lagFn1 Ms k` the VAR coefficient matrix of lag `k`.
-/
set_option autoImplicit false
set_option linter.unusedSectionVars false
namespace Verif.Var

open Verif.Paths (Err clean)

variable {K : Type} [Field K] [LinearOrder K] [IsStrictOrderedRing K]

/-! ### C36: the transformation to structural coefficients -/

/-- **C36.** Without pruning, whatever the VAR estimate and the LiNGAM result are: the reported matrices turn the
fitted VAR into structural equations.  At every time the structural disturbance is `(I - B0)` times the VAR
innovation, and conversely. -/
theorem C36_structural_equations (E : Env K) (o o' : Obj K) (X : Data K) (hp : o.prune = false)
    (h : fit E o X = .ok o') :
    ∃ Ms Bs, o'.arCoefs = some Ms ∧ o'.adjacency = some Bs ∧ Bs.length = Ms.length + 1 ∧
      ∀ (x : Nat → Nat → K) (t : Nat) (e : Nat → K),
        StructEq E.n Ms.length (lagFn Bs) x t e ↔
          ∀ i, i < E.n → e i = innovation E.n Ms.length (lagFn1 Ms) x t i -
            ∑ j ∈ Finset.range E.n, lagFn Bs 0 i j * innovation E.n Ms.length (lagFn1 Ms) x t j := by
  obtain ⟨Ms, lags, resid, Bs, h1, h2, rfl⟩ := fit_ok h
  refine ⟨Ms, Bs, rfl, rfl, (lagMatrices_ok h2).1, ?_⟩
  unfold lagMatrices at h2
  rw [hp] at h2
  simp only [Bool.false_eq_true, if_false] at h2
  injection h2 with h2
  subst h2
  intro x t e
  rw [structEq_iff E.n Ms.length _ (lagFn1 Ms) (fun k hk => lagFn_calcB_succ _ _ _ hk)]
  refine forall_congr' fun i => ?_
  by_cases hi : i < E.n
  · simp only [hi, true_implies]
    rw [mv_oneSub _ _ _ hi]
    rfl
  · simp [hi]

/-- **C36.** With coefficients given by the user, the rows of `residuals_` are the VAR innovations of the data, one
row for every time from `lags` on. -/
theorem C36_residuals (E : Env K) (o o' : Obj K) (X : Data K) (Ms : List (Nat → Nat → K)) (ha : o.arCoefs = some Ms)
    (h : fit E o X = .ok o') :
    ∃ R, o'.residuals = some R ∧ R.rows = X.rows - Ms.length ∧
      ∀ r i, R.val r i = innovation E.n Ms.length (lagFn1 Ms) X.val (r + Ms.length) i := by
  obtain ⟨Ms', lags, resid, Bs, h1, h2, rfl⟩ := fit_ok h
  obtain ⟨rfl, rfl, rfl⟩ := arPart_some ha h1
  exact ⟨_, rfl, rfl, fun r i => calcResiduals_val _ _ _ _ _⟩

/-- **C36.** The disturbances determine the innovations: the structural form loses nothing. -/
theorem C36_innovations_determined (n : Nat) (B0 : Nat → Nat → K) (hE : Acyclic (Edge n B0 0)) (u v : Nat → K)
    (h : ∀ i, i < n → u i - ∑ j ∈ Finset.range n, B0 i j * u j = v i - ∑ j ∈ Finset.range n, B0 i j * v j) :
    ∀ i, i < n → u i = v i := by
  refine fix_unique hE (b := fun i => u i - ∑ j ∈ Finset.range n, B0 i j * u j) (fun i _ => ?_) (fun i hi => ?_)
  · ring
  · rw [h i hi]; ring

/-! ### C37: history of the object -/

/-- The result of a fit as seen through the public attributes. -/
def Obj.results (o : Obj K) : Option (Data K) × Option (List Nat) × Option (List (Nat → Nat → K)) :=
  (o.residuals, o.causalOrder, o.adjacency)

/-- **C37, what happens.** A second `fit` never estimates the VAR again: it keeps the coefficients of the first data
set, whatever the new data are. -/
theorem C37_second_fit_reuses (E : Env K) (o o1 o2 : Obj K) (X1 X2 : Data K)
    (h1 : fit E o X1 = .ok o1) (h2 : fit E o1 X2 = .ok o2) : o2.arCoefs = o1.arCoefs := by
  obtain ⟨Ms, lags, resid, Bs, ha, _, rfl⟩ := fit_ok h1
  obtain ⟨Ms', lags', resid', Bs', ha', _, rfl⟩ := fit_ok h2
  obtain ⟨rfl, rfl, rfl⟩ := arPart_some rfl ha'
  rfl

/-- **C37, partial.** If the coefficients are given in the constructor (with `lags` equal to their number), the
result of `fit` does not depend on earlier calls.  Missing: the default case, where it does (see
`C37_history_dependent`). -/
theorem C37_specified_partial (E : Env K) (o o1 : Obj K) (X1 X2 : Data K) (Ms : List (Nat → Nat → K))
    (ha : o.arCoefs = some Ms) (hl : o.lags = Ms.length) (h1 : fit E o X1 = .ok o1) :
    fit E o1 X2 = fit E o X2 := by
  obtain ⟨Ms', lags, resid, Bs, h2, _, rfl⟩ := fit_ok h1
  obtain ⟨rfl, rfl, rfl⟩ := arPart_some ha h2
  unfold fit arPart lagMatrices
  simp only [ha, hl]

/-- One variable, VAR(1) estimated by least squares, no instantaneous effects: a genuine instance of the oracles. -/
def ar1 : Env ℚ where
  n := 1
  var X _ :=
    let m := (∑ t ∈ Finset.range (X.rows - 1), X.val (t + 1) 0 * X.val t 0) /
      (∑ t ∈ Finset.range (X.rows - 1), X.val t 0 * X.val t 0)
    ⟨[fun _ _ => m], 1, ⟨X.rows - 1, fun r c => X.val (r + 1) c - m * X.val r c⟩, some 0⟩
  lingam _ := ([0], fun _ _ => 0)
  lasso _ _ _ _ := 0

/-- `VARLiNGAM(lags=1, criterion=None, prune=False)`. -/
def fresh : Obj ℚ := { arCoefs := none, lags := 1, useCriterion := false, prune := false }

/-- The series `1, b, b²` -/
def geo (b : ℚ) : Data ℚ := ⟨3, fun t _ => if t = 0 then 1 else if t = 1 then b else b * b⟩

/-- The lag-1 coefficient reported by the object. -/
def lag1 (o : Obj ℚ) : Option ℚ := o.adjacency.map (fun Bs => lagFn Bs 1 0 0)

/-- Fit twice. -/
def fit2 (E : Env ℚ) (o : Obj ℚ) (X1 X2 : Data ℚ) : Except Err (Obj ℚ) :=
  match fit E o X1 with
  | .ok o1 => fit E o1 X2
  | .error e => .error e

/-- **C37, negation.** Least squares on `1, 3, 9` gives the coefficient 3; after an earlier fit to `1, 2, 4` the same
call reports 2. -/
theorem C37_history_dependent :
    (fit ar1 fresh (geo 3)).toOption.bind lag1 = some 3 ∧
    (fit2 ar1 fresh (geo 2) (geo 3)).toOption.bind lag1 = some 2 := by
  decide +kernel

/-! ### C38: total effects -/

/-- **C38, partial.** The reported total effect is the sum over all directed paths of the time-unrolled graph if the
source at lag `L` influences no variable before time `t` (for `L = 0` there is no such condition). Missing: sources
with lagged children, where the value is wrong (see `C38_misses_lagged_paths`). -/
theorem C38_path_sum_partial (n : Nat) (Bs : List (Nat → Nat → K)) (hE : Acyclic (Edge n (lagFn Bs 0) 0))
    (src dst L : Nat) (hs : src < n) (hd : dst < n) (hL : L < Bs.length) (hne : ¬ (L = 0 ∧ src = dst))
    (hch : ∀ k, k < L → ∀ i, i < n → lagFn Bs k i src = 0)
    (paths : List (List Nat)) (hnd : paths.Nodup)
    (hp : ∀ p, p ∈ paths ↔ IsPath (Edge (n * Bs.length) (unroll n (lagFn Bs)) 0) (n * L + src) dst p) :
    totalEffect2 n Bs src dst L = some (.ok (some ((paths.map (pathWeight (unroll n (lagFn Bs)))).sum))) := by
  have hn : 0 < n := by omega
  have hsrc : (if L = 0 then src else src + n * L) = n * L + src := by
    split
    · rename_i h; subst h; simp
    · omega
  have hlt : n * L + src < n * Bs.length := by
    have : n * (L + 1) ≤ n * Bs.length := Nat.mul_le_mul_left n hL
    rw [Nat.mul_succ] at this
    omega
  have hdlt : dst < n * Bs.length := by
    have : n * 1 ≤ n * Bs.length := Nat.mul_le_mul_left n (by omega)
    omega
  have hne' : n * L + src ≠ dst := by
    intro h
    rcases Nat.eq_zero_or_pos L with h0 | h0
    · subst h0; exact hne ⟨rfl, by omega⟩
    · have : n * 1 ≤ n * L := Nat.mul_le_mul_left n h0
      omega
  unfold totalEffect2
  rw [hsrc]
  have hpad := padded_acyclic (N := n * Bs.length) hE
  have hunr : Acyclic (Edge (n * Bs.length) (clean (fun r c => some (unroll n (lagFn Bs) r c))) 0) :=
    unroll_acyclic (N := n * Bs.length) le_rfl hn hE
  rw [calcTotalEffect_congr (d' := fun r c => some (unroll n (lagFn Bs) r c))
    (S := fun v => v < n ∨ v = n * L + src) ?_ ?_ hpad hunr (Or.inr rfl) hlt hdlt hne']
  · exact Paths.C13_total_effect_is_path_sum _ _ _ _ hunr hlt hdlt hne' paths hnd hp
  · intro v w hv hvN hwN
    simp only [clean, Paths.nan0, Option.getD_some, padded, unroll]
    by_cases hw : w < n
    · rw [if_pos hw, Nat.div_eq_of_lt hw, if_pos (Nat.zero_le _), Nat.sub_zero, Nat.mod_eq_of_lt hw]
      rfl
    · rw [if_neg hw]
      have hw1 : 1 ≤ w / n := (Nat.one_le_div_iff hn).2 (by omega)
      rcases hv with hv | rfl
      · rw [if_neg (by rw [Nat.div_eq_of_lt hv]; omega)]
      · rw [Nat.mul_add_div hn, Nat.div_eq_of_lt hs, Nat.add_zero, Nat.mul_add_mod, Nat.mod_eq_of_lt hs]
        by_cases hle : w / n ≤ L
        · rw [if_pos hle, hch _ (by omega) _ (Nat.mod_lt _ hn)]
        · rw [if_neg hle]
  · intro v w _ h
    exact Or.inl (padded_edge h)

/-- **C38, what is computed.** For lag `L ≥ 1` and an unpruned model the reported "total effect" of variable `src` at
lag `L` is just the VAR coefficient `M_L[dst, src]`, whatever the other matrices are. -/
theorem C38_is_var_coefficient (n : Nat) (B0 : Nat → Nat → K) (Ms : List (Nat → Nat → K))
    (hE : Acyclic (Edge n B0 0)) (src dst L : Nat) (hs : src < n) (hd : dst < n) (h1 : 1 ≤ L) (hL : L ≤ Ms.length) :
    totalEffect2 n (calcB n B0 Ms) src dst L = some (.ok (some (lagFn1 Ms L dst src))) := by
  have hn : 0 < n := by omega
  set Bs := calcB n B0 Ms with hBs
  have hlen : Bs.length = Ms.length + 1 := calcB_length _ _ _
  set N := n * Bs.length with hN
  have hsrc : (if L = 0 then src else src + n * L) = n * L + src := by rw [if_neg (by omega)]; omega
  have hlt : n * L + src < N := by
    have : n * (L + 1) ≤ n * Bs.length := Nat.mul_le_mul_left n (by omega)
    rw [Nat.mul_succ] at this
    omega
  have hnN : n ≤ N := by
    have : n * 1 ≤ n * Bs.length := Nat.mul_le_mul_left n (by omega)
    omega
  have hge : n ≤ n * L + src := by
    have : n * 1 ≤ n * L := Nat.mul_le_mul_left n h1
    omega
  have hpad : Acyclic (Edge N (clean (padded n Bs)) 0) := padded_acyclic (N := N) hE
  -- the matrix of path sums is the inverse of `1 - P`
  have hl := Paths.pathSum_mul hpad
  have hr := mul_eq_one_comm.1 hl
  let T : Nat → K := fun i => Paths.pathSum N (padded n Bs) i N (n * L + src)
  have hrow : ∀ i, i < N → T i - ∑ k ∈ Finset.range N, clean (padded n Bs) i k * T k = if i = n * L + src then 1 else 0 := by
    intro i hi
    have := congrFun (congrFun hr ⟨i, hi⟩) ⟨n * L + src, hlt⟩
    rw [sub_mul, one_mul, Matrix.sub_apply, Matrix.mul_apply] at this
    simp only [Matrix.of_apply, Matrix.one_apply, Fin.mk.injEq] at this
    rw [Finset.sum_range]
    exact this
  have hlow : ∀ k, k < N → n ≤ k → T k = if k = n * L + src then 1 else 0 := by
    intro k hk hkn
    have := hrow k hk
    rw [Finset.sum_eq_zero, sub_zero] at this
    · exact this
    · intro j _
      simp [clean, Paths.nan0, padded, not_lt.2 hkn]
  have hup : ∀ i, i < n → T i = (∑ k ∈ Finset.range n, B0 i k * T k) + lagFn Bs L i src := by
    intro i hi
    have h := hrow i (by omega)
    rw [if_neg (by omega), sub_eq_zero] at h
    rw [h, ← Finset.sum_range_add_sum_Ico _ hnN]
    congr 1
    · refine Finset.sum_congr rfl fun k hk => ?_
      have hk := Finset.mem_range.1 hk
      rw [padded_block0 hk hi]; rfl
    · rw [Finset.sum_eq_single (n * L + src)]
      · rw [hlow _ hlt hge, if_pos rfl, mul_one]
        simp only [clean, Paths.nan0, Option.getD_some, padded, if_pos hi]
        rw [Nat.mul_add_div hn, Nat.div_eq_of_lt hs, Nat.add_zero, Nat.mul_add_mod, Nat.mod_eq_of_lt hs]
        rfl
      · intro b hb hne
        rw [Finset.mem_Ico] at hb
        rw [hlow b hb.2 hb.1, if_neg hne, mul_zero]
      · intro hnot
        exact absurd (Finset.mem_Ico.2 ⟨hge, hlt⟩) hnot
  have hM : ∀ i, i < n → lagFn1 Ms L i src = (∑ k ∈ Finset.range n, B0 i k * lagFn1 Ms L k src) + lagFn Bs L i src := by
    intro i hi
    obtain ⟨l, rfl⟩ : ∃ l, L = l + 1 := ⟨L - 1, by omega⟩
    rw [hBs, lagFn_calcB_succ _ _ _ (by omega)]
    have := mv_oneSub n B0 (fun k => lagFn1 Ms (l + 1) k src) hi
    have e1 : mm n (oneSub B0) (lagFn1 Ms (l + 1)) i src = mv n (oneSub B0) (fun k => lagFn1 Ms (l + 1) k src) i := rfl
    rw [e1, this]
    unfold mv
    ring
  have huniq := fix_unique hE hup hM dst hd
  unfold totalEffect2
  rw [hsrc, Paths.calcTotalEffect_acyclic hpad hlt (by omega) (by omega), ← huniq]
  rfl

/-- `x0(t) → x1(t)` with weight 1 and `x1(t-1) → x1(t)` with weight 1. -/
def exB : List (Nat → Nat → ℚ) :=
  [fun i j => if i = 1 ∧ j = 0 then 1 else 0, fun i j => if i = 1 ∧ j = 1 then 1 else 0]

/-- **C38, negation.** `x0(t-1) → x1(t-1) → x1(t)` is a path of weight 1 of the unrolled graph, and `get_paths` lists it,
but the reported total effect of `x0` at lag 1 on `x1` is 0. -/
theorem C38_misses_lagged_paths :
    totalEffect2 2 exB 0 1 1 = some (.ok (some 0)) ∧
    pathsOf 2 1 (concat 2 exB) 0 1 1 0 none = some (.ok ([[2, 3, 1]], [some 1])) := by
  decide +kernel

/-! ### C62: the object after a bootstrap -/

theorem bootLoop_last (E : Env K) (N : Nat) (resample : Nat → Data K → Nat → Nat → K)
    (ar0 : Option (List (Nat → Nat → K))) (lags0 : Nat) (fitted : List (Nat → Nat → K)) :
    ∀ (is : List Nat) (o o' : Obj K) (acc acc' : List (List (Nat → Nat → K))), is ≠ [] →
    bootLoop E N resample ar0 lags0 fitted is o acc = .ok (o', acc') →
    ∃ Bs, o'.adjacency = some Bs ∧ acc'.getLast? = some Bs ∧ acc'.length = acc.length + is.length := by
  intro is
  induction is with
  | nil => intro _ _ _ _ h; exact absurd rfl h
  | cons i is ih =>
    intro o o' acc acc' _ h
    unfold bootLoop at h
    simp only at h
    split at h
    · cases h
    · rename_i o1 hf
      by_cases hne : is = []
      · subst hne
        simp only [bootLoop] at h
        injection h with h
        obtain ⟨rfl, rfl⟩ := Prod.mk.inj h
        obtain ⟨_, _, _, Bs, _, _, rfl⟩ := fit_ok hf
        exact ⟨Bs, rfl, by simp, by simp⟩
      · obtain ⟨Bs, h1, h2, h3⟩ := ih _ _ _ _ hne h
        exact ⟨Bs, h1, h2, by rw [h3]; simp; omega⟩

/-- **C62, what happens.** After `bootstrap` the object no longer holds the model fitted to the data: its adjacency
matrices are those of the last resampled series. -/
theorem C62_bootstrap_overwrites (E : Env K) (o o' : Obj K) (X : Data K) (k : Nat) (hk : 0 < k)
    (resample : Nat → Data K → Nat → Nat → K) (ms : List (List (Nat → Nat → K)))
    (h : bootstrap E o X k resample = .ok (o', ms)) :
    ms.length = k ∧ ∃ Bs, o'.adjacency = some Bs ∧ ms.getLast? = some Bs := by
  unfold bootstrap at h
  split at h
  · cases h
  · split at h
    · cases h
    · rename_i o2 ms2 hb
      injection h with h
      obtain ⟨rfl, rfl⟩ := Prod.mk.inj h
      obtain ⟨Bs, h1, h2, h3⟩ := bootLoop_last _ _ _ _ _ _ _ _ _ _ _ (by simp; omega) hb
      exact ⟨by simpa using h3, Bs, h1, h2⟩

/-- Draw the second residual first and then always the first one: a possible outcome of `resample` whenever there are
at least two residual rows. -/
def draw (_i : Nat) (R : Data ℚ) (t _c : Nat) : ℚ := R.val (if t = 0 then 1 else 0) 0

/-- A series whose least squares residuals are not all zero. -/
def wob : Data ℚ := ⟨4, fun t _ => if t = 0 then 1 else if t = 1 then 1 else if t = 2 then 2 else 0⟩

/-- **C62, negation.** The lag-1 coefficient of the fitted model, and the one the object reports after one bootstrap
round. -/
theorem C62_model_changed :
    (fit ar1 fresh wob).toOption.bind lag1 = some (1 / 2) ∧
    (bootstrap ar1 fresh wob 1 draw).toOption.bind (fun p => lag1 p.1) ≠ some (1 / 2) := by
  decide +kernel

/-! ### C63: which residuals are drawn -/

/-- Every drawn row is one of the rows of the residuals it was drawn from (`sklearn.utils.resample`). -/
def Draws (n : Nat) (resample : Nat → Data K → Nat → Nat → K) : Prop :=
  ∀ i D t, 0 < D.rows → ∃ r, r < D.rows ∧ ∀ c, c < n → resample i D t c = D.val r c

/-- Every row of `R'` is a row of `R`. -/
def RowsIn (n : Nat) (R' R : Data K) : Prop :=
  ∀ r, r < R'.rows → ∃ r0, r0 < R.rows ∧ ∀ c, c < n → R'.val r c = R.val r0 c

theorem RowsIn.trans {n : Nat} {A B C : Data K} (h1 : RowsIn n A B) (h2 : RowsIn n B C) : RowsIn n A C := by
  intro r hr
  obtain ⟨r0, h3, h4⟩ := h1 r hr
  obtain ⟨r1, h5, h6⟩ := h2 r0 h3
  exact ⟨r1, h5, fun c hc => (h4 c hc).trans (h6 c hc)⟩

/-- One round with given coefficients: the residuals held afterwards are among those drawn. -/
theorem round_residuals (E : Env K) (o o' : Obj K) (Ms : List (Nat → Nat → K)) (e : Nat → Nat → K) (N : Nat)
    (h : fit E { o with arCoefs := some Ms, lags := Ms.length } ⟨N, generate E.n Ms.length Ms e N⟩ = .ok o') :
    o'.arCoefs = some Ms ∧ o'.lags = Ms.length ∧
    ∃ R, o'.residuals = some R ∧ R.rows = N - Ms.length ∧
      ∀ r, r < R.rows → ∀ i, R.val r i = e (r + Ms.length) i := by
  obtain ⟨Ms', lags, resid, Bs, h2, _, rfl⟩ := fit_ok h
  obtain ⟨hM, hl, hr0⟩ := arPart_some rfl h2
  subst hl hr0
  refine ⟨by rw [hM], rfl, _, rfl, rfl, fun r hr i => ?_⟩
  have hr' : r + Ms.length < N := by
    have : (calcResiduals E.n ⟨N, generate E.n Ms.length Ms e N⟩ Ms Ms.length).rows = N - Ms.length := rfl
    omega
  exact calcResiduals_generate E.n Ms e hr' i

/-- **C63, what happens.** When the VAR coefficients are fixed (given by the user, or left over from an earlier `fit`),
each round of the bootstrap draws from the residuals left by the *previous round*, so the set of residuals that can
be drawn only ever shrinks: after any number of rounds the residuals are among those held before. -/
theorem C63_residuals_shrink (E : Env K) (N : Nat) (resample : Nat → Data K → Nat → Nat → K) (hd : Draws E.n resample)
    (Ms : List (Nat → Nat → K)) (hN : Ms.length < N) :
    ∀ (is : List Nat) (o o' : Obj K) (R : Data K) (acc acc' : List (List (Nat → Nat → K))),
    o.residuals = some R → 0 < R.rows →
    bootLoop E N resample (some Ms) Ms.length Ms is o acc = .ok (o', acc') →
    ∃ R', o'.residuals = some R' ∧ 0 < R'.rows ∧ RowsIn E.n R' R := by
  intro is
  induction is with
  | nil =>
    intro o o' R acc acc' hR h0 h
    simp only [bootLoop] at h
    injection h with h
    obtain ⟨rfl, rfl⟩ := Prod.mk.inj h
    exact ⟨R, hR, h0, fun r hr => ⟨r, hr, fun _ _ => rfl⟩⟩
  | cons i is ih =>
    intro o o' R acc acc' hR h0 h
    unfold bootLoop at h
    simp only at h
    split at h
    · cases h
    · rename_i o1 hf
      obtain ⟨_, _, R1, hR1, hrows, hval⟩ := round_residuals E o o1 Ms _ N hf
      have h1 : 0 < R1.rows := by omega
      obtain ⟨R', h2, h3, h4⟩ := ih _ _ R1 _ _ hR1 h1 h
      refine ⟨R', h2, h3, h4.trans ?_⟩
      intro r hr
      rw [hR] at hval
      simp only [Option.getD_some] at hval
      obtain ⟨r0, h5, h6⟩ := hd i R (r + Ms.length) h0
      exact ⟨r0, h5, fun c hc => (hval r hr c).trans (h6 c hc)⟩

/-- **C63, consequence.** Once a round happens to draw a single row, every later round uses only that row. -/
theorem C63_absorbing (E : Env K) (N : Nat) (resample : Nat → Data K → Nat → Nat → K) (hd : Draws E.n resample)
    (Ms : List (Nat → Nat → K)) (hN : Ms.length < N) (is : List Nat) (o o' : Obj K) (R : Data K) (v : Nat → K)
    (acc acc' : List (List (Nat → Nat → K))) (hR : o.residuals = some R) (h0 : 0 < R.rows)
    (hv : ∀ r, r < R.rows → ∀ c, c < E.n → R.val r c = v c)
    (h : bootLoop E N resample (some Ms) Ms.length Ms is o acc = .ok (o', acc')) :
    ∃ R', o'.residuals = some R' ∧ ∀ r, r < R'.rows → ∀ c, c < E.n → R'.val r c = v c := by
  obtain ⟨R', h1, _, h3⟩ := C63_residuals_shrink E N resample hd Ms hN is o o' R acc acc' hR h0 h
  refine ⟨R', h1, fun r hr c hc => ?_⟩
  obtain ⟨r0, h4, h5⟩ := h3 r hr
  rw [h5 c hc, hv r0 h4 c hc]

/-- Draw always the first residual. -/
def drawFirst (_i : Nat) (R : Data ℚ) (_t c : Nat) : ℚ := R.val 0 c

/-- The bootstrap run of an object with the coefficient `1/2` given, on `wob`: the residuals before and after one
round. -/
def fixedObj : Obj ℚ := { arCoefs := some [fun _ _ => 1 / 2], lags := 1, useCriterion := false, prune := false }

/-- The residual values held by an object. -/
def residVals (o : Obj ℚ) : List ℚ := match o.residuals with
  | none => []
  | some R => (List.range R.rows).map (fun r => R.val r 0)

/-- **C63, negation.** After one round only the residual `1/2` is left; the residuals `3/2` and `-1` of the fitted
model can never be drawn again. -/
theorem C63_residuals_lost :
    (fit ar1 fixedObj wob).toOption.map residVals = some [1 / 2, 3 / 2, -1] ∧
    (bootstrap ar1 fixedObj wob 1 drawFirst).toOption.map (fun p => residVals p.1) = some [1 / 2, 1 / 2, 1 / 2] := by
  decide +kernel

example : Draws (K := ℚ) 1 drawFirst := fun _ _ _ h => ⟨0, h, fun _ _ => rfl⟩

/-! ### C64: the instantaneous matrix -/

/-- **C64.** With or without pruning: if the LiNGAM model returns an order of the variables and a matrix consistent
with it (C01, C02 for DirectLiNGAM), then so does VARLiNGAM: every instantaneous edge goes forward in `causal_order_`,
and the instantaneous graph is acyclic. -/
theorem C64_instantaneous_acyclic (E : Env K) (o o' : Obj K) (X : Data K)
    (hL : ∀ R, IsOrder E.n (E.lingam R).1 ∧
      ∀ i j, i < E.n → j < E.n → (E.lingam R).2 i j ≠ 0 → Before (E.lingam R).1 j i)
    (h : fit E o X = .ok o') :
    ∃ order Bs, o'.causalOrder = some order ∧ o'.adjacency = some Bs ∧ IsOrder E.n order ∧
      (∀ i j, i < E.n → j < E.n → lagFn Bs 0 i j ≠ 0 → Before order j i) ∧
      Acyclic (Edge E.n (lagFn Bs 0) 0) := by
  obtain ⟨Ms, lags, resid, Bs, _, h2, rfl⟩ := fit_ok h
  obtain ⟨ho, hB⟩ := hL resid
  have key : ∀ i j, i < E.n → j < E.n → lagFn Bs 0 i j ≠ 0 → Before (E.lingam resid).1 j i := by
    intro i j hi hj hne
    rw [(lagMatrices_ok h2).2.1 i hi j] at hne
    split at hne
    · rename_i hc
      have hmem := hc.2
      have him : i ∈ (E.lingam resid).1 := (ho.2 i).2 hi
      have hidx : (E.lingam resid).1.idxOf i < (E.lingam resid).1.length := List.idxOf_lt_length_of_mem him
      have hdrop : i ∈ (E.lingam resid).1.drop ((E.lingam resid).1.idxOf i) := by
        rw [List.drop_eq_getElem_cons hidx]
        rw [List.getElem_idxOf]
        simp
      have := Before.of_mem_append hmem hdrop
      rwa [List.take_append_drop] at this
    · exact hB i j hi hj hne
  refine ⟨_, Bs, rfl, rfl, ho, key, ?_⟩
  refine acyclic_of_before ho.1 ?_
  rintro a b ⟨ha, hb, hw⟩
  exact key b a hb ha (abs_pos.1 hw)

/-! ### C65: the pruning regression -/

/-- **C65.** With pruning (`lags` = number of fitted matrices), row `i` of every reported lag matrix holds the
coefficients of one adaptive lasso regression of `x_i(t)` on its predecessors in the causal order at time `t` and on
all variables at times `t-1, …, t-lags`, one data row per time `t = T-1, …, lags`; each lagged value really is that
variable's value that many steps earlier. -/
theorem C65_pruning_regression (E : Env K) (o o' : Obj K) (X : Data K) (hp : o.prune = true)
    (hlags : 1 ≤ o.lags) (h : fit E o X = .ok o') :
    ∃ order Bs Ms, o'.causalOrder = some order ∧ o'.adjacency = some Bs ∧ o'.arCoefs = some Ms ∧
      ∀ i, i < E.n →
      ∃ (rows : Nat → List K) (y : Nat → K),
        (∀ c, c < order.idxOf i → ∀ v, order[c]? = some v → order.Nodup →
            lagFn Bs 0 i v = E.lasso (X.rows - o.lags) rows y c) ∧
        (∀ k, k < Ms.length → ∀ c, lagFn Bs (k + 1) i c =
            E.lasso (X.rows - o.lags) rows y (order.idxOf i + E.n * k + c)) ∧
        ∀ r, r < X.rows - o.lags →
          y r = X.val (X.rows - 1 - r) i ∧
          rows r = (order.take (order.idxOf i)).map (X.val (X.rows - 1 - r)) ++
            (List.range o.lags).flatMap (fun k => (List.range E.n).map (X.val (X.rows - 1 - r - (k + 1)))) := by
  obtain ⟨Ms, lags, resid, Bs, _, h2, rfl⟩ := fit_ok h
  obtain ⟨_, h3, h4⟩ := lagMatrices_ok h2
  refine ⟨_, Bs, Ms, rfl, rfl, rfl, fun i hi => ?_⟩
  have hnb : nBlocks X o.lags = X.rows - o.lags := by unfold nBlocks; rw [if_neg (by omega)]
  refine ⟨expLoop E.n X o.lags ((E.lingam resid).1.take ((E.lingam resid).1.idxOf i)), objVec X i, ?_, ?_, ?_⟩
  · intro c hc v hv hnd
    have hcl : c < (E.lingam resid).1.length := (List.getElem?_eq_some_iff.1 hv).1
    have hget : ((E.lingam resid).1.take ((E.lingam resid).1.idxOf i))[c]? = some v := by
      rw [List.getElem?_take, if_pos hc, hv]
    have hmem := List.mem_of_getElem? hget
    rw [h3 i hi v, if_pos ⟨hp, hmem⟩]
    unfold prunedRow
    rw [hnb]
    congr 1
    obtain ⟨hlt, heq⟩ := List.getElem?_eq_some_iff.1 hget
    rw [← heq]
    exact (hnd.sublist (List.take_sublist _ _)).idxOf_getElem c hlt
  · intro k hk c
    rw [h4 i hi k hk, if_pos hp]
    unfold prunedRow
    rw [hnb]
  · intro r hr
    refine ⟨?_, ?_⟩
    · unfold objVec
      rw [stacked_eq (by omega)]
      rfl
    · rw [expLoop_eq _ _ _ _ (by omega)]
      unfold expRow
      congr 1
      · apply List.map_congr_left
        intro c _
        rw [stacked_eq (by omega)]
        rfl
      · apply List.flatMap_congr
        intro k hk
        rw [List.mem_range] at hk
        apply List.map_congr_left
        intro c _
        rw [stacked_eq (by omega)]

/-! ### C66: paths of the bootstrap result -/

/-- **C66.** `get_paths` of the bootstrap result searches the time-unrolled graph: for one bootstrap sample with an
acyclic instantaneous matrix it lists exactly the directed paths (each once) between the requested variables at the
requested lags, with the product of the coefficients as effect. -/
theorem C66_paths_exact (n p : Nat) (Bs : List (Nat → Nat → K)) (hE : Acyclic (Edge n (lagFn Bs 0) 0))
    (src dst srcLag dstLag : Nat) (hs : src < n) (hd : dst < n) (hsl : srcLag ≤ p)
    (hle : dstLag ≤ srcLag) (hne : ¬ (srcLag = dstLag ∧ src = dst)) (thr : Option K) (hthr : ∀ t, thr = some t → 0 < t) :
    ∃ paths, pathsOf n p (concat n Bs) src dst srcLag dstLag thr =
        some (.ok (paths, paths.map (fun q => some (pathWeight (unroll n (lagFn Bs)) q)))) ∧ paths.Nodup ∧
      ∀ q, q ∈ paths ↔
        IsPath (Edge (n * (p + 1)) (unroll n (lagFn Bs)) (thr.getD 0)) (n * srcLag + src) (n * dstLag + dst) q := by
  have hn : 0 < n := by omega
  set N := n * (p + 1) with hN
  set t0 := thr.getD 0 with ht0
  have ht : 0 ≤ t0 := by
    rw [ht0]
    cases thr with
    | none => simp
    | some t => simpa using (hthr t rfl).le
  have hlt : n * srcLag + src < N := by
    have : n * (srcLag + 1) ≤ n * (p + 1) := Nat.mul_le_mul_left n (by omega)
    rw [Nat.mul_succ] at this
    omega
  have hne' : n * srcLag + src ≠ n * dstLag + dst := by
    intro h
    have e1 : (n * srcLag + src) / n = srcLag := by
      rw [Nat.mul_add_div hn, Nat.div_eq_of_lt hs, Nat.add_zero]
    have e2 : (n * dstLag + dst) / n = dstLag := by
      rw [Nat.mul_add_div hn, Nat.div_eq_of_lt hd, Nat.add_zero]
    have e3 : srcLag = dstLag := by rw [← e1, ← e2, h]
    subst e3
    exact hne ⟨rfl, by omega⟩
  have hgo : pathsOf n p (concat n Bs) src dst srcLag dstLag thr =
      Paths.findAllPaths N (fun i j => some (expansion n p (concat n Bs) i j)) (n * srcLag + src) (n * dstLag + dst) t0 := by
    have hg : ∀ t, pathsOf.go n p (concat n Bs) src dst srcLag dstLag t =
        Paths.findAllPaths N (fun i j => some (expansion n p (concat n Bs) i j)) (n * srcLag + src) (n * dstLag + dst) t := by
      intro t
      unfold pathsOf.go
      rw [if_neg (by omega), if_neg (fun h => hne ⟨h.1.symm, h.2.symm⟩)]
    unfold pathsOf
    cases thr with
    | none => exact hg 0
    | some t =>
      simp only
      rw [if_neg (by simpa using hthr t rfl)]
      exact hg t
  rw [hgo]
  have heq : ∀ v w, True → v < N → w < N →
      clean (fun i j => some (expansion n p (concat n Bs) i j)) w v = unroll n (lagFn Bs) w v :=
    fun v w _ hv _ => expansion_unroll hn Bs hv
  have hedge : ∀ a b, Edge N (clean (fun i j => some (expansion n p (concat n Bs) i j))) t0 a b ↔
      Edge N (unroll n (lagFn Bs)) t0 a b := by
    intro a b
    constructor
    · rintro ⟨h1, h2, h3⟩; exact ⟨h1, h2, by rwa [heq a b trivial h1 h2] at h3⟩
    · rintro ⟨h1, h2, h3⟩; exact ⟨h1, h2, by rwa [heq a b trivial h1 h2]⟩
  have hac : Acyclic (Edge N (clean (fun i j => some (expansion n p (concat n Bs) i j))) t0) := by
    intro i hi
    exact unroll_acyclic ht hn hE i (Relation.TransGen.mono (fun a b h => (hedge a b).1 h) _ _ hi)
  refine ⟨Paths.enum (Paths.toIndices N (fun i j => some (expansion n p (concat n Bs) i j)) t0) (n * dstLag + dst) N
    (n * srcLag + src), ?_, Paths.enum_nodup (Paths.toIndices_nodup _ _ _) _ _, ?_⟩
  · rw [Paths.findAllPaths_acyclic ht hac hlt hne']
    congr 3
    apply List.map_congr_left
    intro q hq
    rw [Paths.mem_enum_acyclic hac hlt] at hq
    rw [pathWeight_congr heq (fun x hx => ⟨trivial, Paths.isPath_lt hlt hq x hx⟩)]
  · intro q
    rw [Paths.mem_enum_acyclic hac hlt]
    exact isPath_congr (S := fun _ => True) heq (fun _ _ _ _ => trivial) trivial

/-- **C66.** Requests against the direction of time, or for a path from a variable to itself at the same lag, are
refused. -/
theorem C66_refused (n p : Nat) (am : Nat → Nat → K) (src dst srcLag dstLag : Nat)
    (h : srcLag < dstLag ∨ (srcLag = dstLag ∧ src = dst)) :
    pathsOf n p am src dst srcLag dstLag none = some (.error .valueError) := by
  show pathsOf.go n p am src dst srcLag dstLag 0 = _
  unfold pathsOf.go
  rcases h with h | h
  · rw [if_pos h]
  · rw [if_neg (by omega), if_pos ⟨h.1.symm, h.2.symm⟩]

/-! ### C67: the regression behind `estimate_total_effect` -/

/-- **C67.** The predictors of `estimate_total_effect` are the source and exactly its parents in the time-unrolled
graph, shifted to the source's lag: column `n * (lag + k) + j` is a predictor (besides the source) iff variable `j` has
a nonzero lag-`k` coefficient for the source. -/
theorem C67_adjustment_set (n : Nat) (Bs : List (Nat → Nat → K)) (src lag : Nat) (hs : src < n) :
    ∃ ps, predictors n Bs src lag = (n * lag + src) :: ps ∧ ps.Nodup ∧
      ∀ k j, j < n → (n * (lag + k) + j ∈ ps ↔ k < Bs.length ∧ lagFn Bs k src j ≠ 0) := by
  have hn : 0 < n := by omega
  refine ⟨((List.range (n * Bs.length)).filter (fun c => decide (0 < |concat n Bs src c|))).map
      (fun c => if lag = 0 then c else c + n * lag), ?_, ?_, ?_⟩
  · unfold predictors
    congr 1
    split
    · rename_i h; subst h; simp
    · omega
  · apply List.Nodup.map
    · intro a b hab
      simp only at hab
      split at hab <;> omega
    · exact List.Nodup.filter _ List.nodup_range
  · intro k j hj
    simp only [List.mem_map, List.mem_filter, List.mem_range, decide_eq_true_eq, abs_pos]
    have hshift : ∀ c, (if lag = 0 then c else c + n * lag) = c + n * lag := by
      intro c; split
      · rename_i h; subst h; simp
      · rfl
    constructor
    · rintro ⟨c, ⟨h1, h2⟩, h3⟩
      rw [hshift, Nat.mul_add] at h3
      have hc : c = n * k + j := by omega
      subst hc
      rw [concat_block hn _ _ _ _ hj] at h2
      refine ⟨?_, h2⟩
      by_contra hk
      have : n * Bs.length ≤ n * k := Nat.mul_le_mul_left n (by omega)
      omega
    · rintro ⟨h1, h2⟩
      refine ⟨n * k + j, ⟨?_, ?_⟩, ?_⟩
      · have : n * (k + 1) ≤ n * Bs.length := Nat.mul_le_mul_left n (by omega)
        rw [Nat.mul_succ] at this
        omega
      · rw [concat_block hn _ _ _ _ hj]; exact h2
      · rw [hshift, Nat.mul_add]; omega

/-- **C67, partial.** From time `k` on, column `n * k + j` of the regression data is variable `j`, `k` steps earlier.
Missing: the first rows (see `C67_wraps_around`). -/
theorem C67_lagged_columns_partial (n : Nat) (X : Data K) (t k j : Nat) (hj : j < n) (hk : k ≤ t) (ht : t < X.rows) :
    joined n X t (n * k + j) = X.val (t - k) j := by
  have hn : 0 < n := by omega
  unfold joined
  rw [Nat.mul_add_div hn, Nat.div_eq_of_lt hj, Nat.add_zero, Nat.mul_add_mod, Nat.mod_eq_of_lt hj,
    Nat.mod_eq_of_lt (by omega : k < X.rows)]
  congr 1
  rw [show t + X.rows - k = t - k + X.rows by omega, Nat.add_mod_right, Nat.mod_eq_of_lt (by omega)]

/-- Least squares with intercept, as far as needed: whenever the regressand is an exact linear combination of linearly
independent columns and the constant, its coefficients are found. -/
def ExactOls (ols : Nat → (Nat → List K) → (Nat → K) → Nat → K) : Prop :=
  ∀ (N m : Nat) (rows : Nat → List K) (y : Nat → K) (a : K) (c : Nat → K), (∀ t, t < N → (rows t).length = m) →
    (∀ (b : K) (d : Nat → K), (∀ t, t < N → b + ∑ k ∈ Finset.range m, d k * (rows t).getD k 0 = 0) →
      b = 0 ∧ ∀ k, k < m → d k = 0) →
    (∀ t, t < N → y t = a + ∑ k ∈ Finset.range m, c k * (rows t).getD k 0) → ∀ k, k < m → ols N rows y k = c k

/-- Least squares of this kind exists. -/
theorem exactOls_exists : ∃ ols : Nat → (Nat → List K) → (Nat → K) → Nat → K, ExactOls ols := by
  classical
  let good (N : Nat) (rows : Nat → List K) (y : Nat → K) (q : Nat × K × (Nat → K)) : Prop :=
    (∀ t, t < N → (rows t).length = q.1) ∧
    (∀ (b : K) (d : Nat → K), (∀ t, t < N → b + ∑ k ∈ Finset.range q.1, d k * (rows t).getD k 0 = 0) →
      b = 0 ∧ ∀ k, k < q.1 → d k = 0) ∧
    (∀ t, t < N → y t = q.2.1 + ∑ k ∈ Finset.range q.1, q.2.2 k * (rows t).getD k 0)
  refine ⟨fun N rows y => if h : ∃ q, good N rows y q then h.choose.2.2 else 0, ?_⟩
  intro N m rows y a c h1 h2 h3 k hk
  have hex : ∃ q, good N rows y q := ⟨(m, a, c), h1, h2, h3⟩
  simp only [dif_pos hex]
  obtain ⟨g1, g2, g3⟩ := hex.choose_spec
  generalize hex.choose = q at g1 g2 g3
  obtain ⟨m', a', c'⟩ := q
  simp only at g1 g2 g3 ⊢
  rcases Nat.eq_zero_or_pos N with rfl | hN
  · exact absurd (h2 1 0 (fun t ht => absurd ht (Nat.not_lt_zero t))).1 one_ne_zero
  · obtain rfl : m' = m := by rw [← g1 0 hN, h1 0 hN]
    have := (h2 (a' - a) (fun k => c' k - c k) (fun t ht => by
      have e := g3 t ht
      rw [h3 t ht] at e
      simp only [sub_mul, Finset.sum_sub_distrib]
      linear_combination -e)).2 k hk
    linear_combination this

/-- **C67.** The reported number is the coefficient of the *source*: if the target is an exact linear combination
`a + τ * source + …` of the predictor columns, which are linearly independent, then `τ` is returned. -/
theorem C67_source_coefficient (n : Nat) (ols : Nat → (Nat → List K) → (Nat → K) → Nat → K) (hols : ExactOls ols)
    (X : Data K) (Bs : List (Nat → Nat → K)) (src dst lag : Nat) (hs : src < n) (hd : dst < n) (a τ : K) (g : Nat → K)
    (hind : ∀ (b : K) (d : Nat → K), (∀ t, t < X.rows →
      b + ∑ k ∈ Finset.range (predictors n Bs src lag).length, d k * ((predictors n Bs src lag).map (joined n X t)).getD k 0 = 0) →
      b = 0 ∧ ∀ k, k < (predictors n Bs src lag).length → d k = 0)
    (hy : ∀ t, t < X.rows → X.val t dst = a + τ * X.val ((t + X.rows - lag % X.rows) % X.rows) src +
      ∑ k ∈ Finset.range ((predictors n Bs src lag).length - 1),
        g k * ((predictors n Bs src lag).map (joined n X t)).getD (k + 1) 0) :
    totalEffectReg n ols X Bs src dst lag = τ := by
  have hn : 0 < n := by omega
  obtain ⟨ps, hps, _, _⟩ := C67_adjustment_set n Bs src lag hs
  unfold totalEffectReg
  have hlen : (predictors n Bs src lag).length = ps.length + 1 := by rw [hps]; rfl
  have := hols X.rows (predictors n Bs src lag).length (fun t => (predictors n Bs src lag).map (joined n X t))
    (fun t => joined n X t dst) a (fun k => if k = 0 then τ else g (k - 1)) (fun t _ => by simp) hind ?_ 0 (by omega)
  · rw [this, if_pos rfl]
  · intro t ht
    have e0 : joined n X t dst = X.val t dst := by
      unfold joined
      rw [Nat.div_eq_of_lt hd, Nat.zero_mod, Nat.sub_zero, Nat.add_mod_right, Nat.mod_eq_of_lt ht, Nat.mod_eq_of_lt hd]
    have e1 : joined n X t (n * lag + src) = X.val ((t + X.rows - lag % X.rows) % X.rows) src := by
      unfold joined
      rw [Nat.mul_add_div hn, Nat.div_eq_of_lt hs, Nat.add_zero, Nat.mul_add_mod, Nat.mod_eq_of_lt hs]
    rw [e0, hy t ht, hlen, Finset.sum_range_succ']
    simp only [Nat.add_sub_cancel, Nat.succ_ne_zero, if_false, if_true]
    rw [show ((predictors n Bs src lag).map (joined n X t)).getD 0 0 = joined n X t (n * lag + src) by rw [hps]; rfl, e1]
    ring

/-- **C67, negation (general).** The first rows pair a sample with the *end* of the series: for `t < k` the value used
as "`k` steps earlier" is `T + t - k`, which lies in the future of `t`. -/
theorem C67_wraps_around (n : Nat) (X : Data K) (t k j : Nat) (hj : j < n) (hk : t < k) (hk' : k < X.rows) :
    joined n X t (n * k + j) = X.val (X.rows + t - k) j ∧ t < X.rows + t - k := by
  have hn : 0 < n := by omega
  refine ⟨?_, by omega⟩
  unfold joined
  rw [Nat.mul_add_div hn, Nat.div_eq_of_lt hj, Nat.add_zero, Nat.mul_add_mod, Nat.mod_eq_of_lt hj, Nat.mod_eq_of_lt hk']
  congr 1
  rw [Nat.mod_eq_of_lt (by omega)]
  omega

/-! ### C69: the resampled series -/

/-- **C69.** Every series generated by the bootstrap follows the fitted VAR exactly: from time `lags` on its
innovations are the drawn residuals; before that it equals them. -/
theorem C69_series_follows_var (n lags N : Nat) (Ms : List (Nat → Nat → K)) (e : Nat → Nat → K) (hM : Ms.length ≤ lags)
    (t i : Nat) (ht : t < N) :
    (t < lags → generate n lags Ms e N t i = e t i) ∧
    (lags ≤ t → innovation n Ms.length (lagFn1 Ms) (generate n lags Ms e N) t i = e t i) := by
  constructor
  · intro h
    rw [generate_row n lags Ms e hM ht, if_pos h]
  · intro h
    unfold innovation
    rw [generate_row n lags Ms e hM ht, if_neg (by omega)]
    unfold mv
    ring

/-! ### Concrete cases -/

theorem exB_acyclic : Acyclic (Edge 2 (lagFn exB 0) 0) := by
  refine acyclic_of_before (l := [0, 1]) (by decide) ?_
  rintro a b ⟨ha, hb, hw⟩
  have h2 : a = 0 ∧ b = 1 := by
    revert hw
    unfold lagFn exB
    by_contra hc
    push Not at hc
    obtain ⟨h1, h2⟩ := hc
    simp at h1
    exact h2 h1.2 h1.1
  obtain ⟨rfl, rfl⟩ := h2
  exact ⟨[], [], [], rfl⟩

/-- C38: lag 0 satisfies the hypotheses, with the value 1. -/
example : totalEffect2 2 exB 0 1 0 = some (.ok (some 1)) := by decide +kernel
/-- C38: `x1` at lag 1 has no instantaneous child, so the hypotheses of the partial theorem hold for it. -/
example : (∀ k, k < 1 → ∀ i, i < 2 → lagFn exB k i 1 = 0) ∧ totalEffect2 2 exB 1 1 1 = some (.ok (some 1)) := by
  constructor
  · intro k hk i _
    obtain rfl : k = 0 := by omega
    simp [lagFn, exB]
  · decide +kernel
/-- C36, C37: the fits succeed. -/
example : (fit ar1 fresh (geo 2)).toOption.bind lag1 = some 2 := by decide +kernel
/-- C64: the hypothesis on the LiNGAM model holds for the instance. -/
example : ∀ R, IsOrder ar1.n (ar1.lingam R).1 ∧
    ∀ i j, i < ar1.n → j < ar1.n → (ar1.lingam R).2 i j ≠ 0 → Before (ar1.lingam R).1 j i := by
  intro R
  refine ⟨⟨List.nodup_singleton 0, fun i => ?_⟩, fun i j _ _ h => absurd rfl h⟩
  show i ∈ [0] ↔ i < 1
  simp
/-- C66 with a threshold. -/
example : pathsOf 2 1 (concat 2 exB) 0 1 1 0 (some (1 / 2)) = some (.ok ([[2, 3, 1]], [some 1])) := by decide +kernel
/-- C67: two series with `x1 = 3 x0` at every time; the hypotheses of `C67_source_coefficient` hold and the answer is 3. -/
example : ∃ (ols : Nat → (Nat → List ℚ) → (Nat → ℚ) → Nat → ℚ),
    totalEffectReg 2 ols ⟨3, fun t i => if i = 0 then 2 ^ t else 3 * 2 ^ t⟩ [fun i j => if i = 1 ∧ j = 0 then 3 else 0] 0 1 0
      = 3 := by
  obtain ⟨ols, hols⟩ := exactOls_exists (K := ℚ)
  refine ⟨ols, C67_source_coefficient 2 ols hols _ _ 0 1 0 (by decide) (by decide) 0 3 0 ?_ ?_⟩
  · have hp : predictors 2 [fun i j => if i = 1 ∧ j = 0 then (3 : ℚ) else 0] 0 0 = [0] := by decide +kernel
    rw [hp]
    intro b d h
    have h0 := h 0 (by decide)
    have h1 := h 1 (by decide)
    simp [joined] at h0 h1
    have hd : d 0 = 0 := by linarith
    refine ⟨by linarith, fun k hk => ?_⟩
    obtain rfl : k = 0 := by simpa using hk
    exact hd
  · have hp : predictors 2 [fun i j => if i = 1 ∧ j = 0 then (3 : ℚ) else 0] 0 0 = [0] := by decide +kernel
    rw [hp]
    intro t ht
    have ht : t < 3 := ht
    have : t % 3 = t := Nat.mod_eq_of_lt ht
    simp [this]
/-- C69: a generated series. -/
example : (List.range 4).map (fun t => generate 1 1 [fun _ _ => (2 : ℚ)] (fun _ _ => 1) 4 t 0) = [1, 3, 7, 15] := by
  decide +kernel

end Verif.Var
