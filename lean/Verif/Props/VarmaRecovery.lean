import Verif.Props.Varma
import Verif.Props.VarRecovery

/-!
# VARMALiNGAM: recovery of the structural matrices (C190) and the residuals for given coefficients (C191)
-/
set_option linter.unusedSectionVars false
set_option autoImplicit false
namespace Verif.Varma
open Finset
open Verif.Var (Data mm mv oneSub lagFn lagFn1 LingamRight)

variable {N : Nat}

/-- The estimated VARMA model `f` is the reduced form of the structural model with matrices `Ψ`, `Ω` and errors `e`:
`(I - Ψ₀) φ_k = Ψ_k`, `(I - Ψ₀) θ_k = Ω_k (I - Ψ₀)` and `(I - Ψ₀) u_t = e_t` for the residuals `u`. -/
structure ReducedForm (n N p q : Nat) (Ψ Ω : Nat → Nat → Nat → ℚ) (e : Nat → Fin N → ℚ) (f : VarmaFit ℚ) : Prop where
  order : f.order = (p, q)
  arCount : (f.phis.getD []).length = p
  maCount : (f.thetas.getD []).length = q
  rows : f.resid.rows = N
  ar : ∀ k, k < p → ∀ i j, i < n → j < n →
    lagFn1 (f.phis.getD []) (k + 1) i j - ∑ l ∈ range n, Ψ 0 i l * lagFn1 (f.phis.getD []) (k + 1) l j = Ψ (k + 1) i j
  ma : ∀ k, k < q → ∀ i j, i < n → j < n →
    lagFn1 (f.thetas.getD []) (k + 1) i j - ∑ l ∈ range n, Ψ 0 i l * lagFn1 (f.thetas.getD []) (k + 1) l j =
      Ω (k + 1) i j - ∑ l ∈ range n, Ω (k + 1) i l * Ψ 0 l j
  resid : ∀ (r : Fin N) i, i < n → f.resid.val r i = ∑ j ∈ range n, Ψ 0 i j * f.resid.val r j + e i r

theorem lagFn1_map (ms : List (Nat → Nat → ℚ)) (g : (Nat → Nat → ℚ) → Nat → Nat → ℚ) {k : Nat} (hk : k < ms.length) :
    lagFn1 (ms.map g) (k + 1) = g (lagFn1 ms (k + 1)) := by
  simp [lagFn1, hk]

/-- **C190, partial.** Without pruning, with the reduced form estimated exactly and a LiNGAM method that is right on the
residuals, `fit` succeeds and reports exactly `Ψ 0, …, Ψ p` and an order in which causes come first; what it reports for
`Ω_k` is `Ω_k - Ω_k Ψ₀`.  Missing: `Ω_k` itself, see `C190_omega_iff`. -/
theorem C190_recovered_partial (E : Env ℚ) (o : Obj ℚ) (X : Data ℚ) (ha : o.ar = none ∨ o.ma = none) (hp : o.prune = false)
    {f : VarmaFit ℚ} (hest : estimate E o X = some f) {p q : Nat} {Ψ Ω : Nat → Nat → Nat → ℚ} {e : Nat → Fin N → ℚ}
    (hf : ReducedForm E.n N p q Ψ Ω e f) (hl : LingamRight (N := N) E.n E.lingam (Ψ 0) e) :
    ∃ o' order psis omegas, fit E o X = .ok o' ∧ o'.causalOrder = some order ∧ o'.adjacency = some (psis, omegas) ∧
      psis.length = p + 1 ∧ omegas.length = q ∧ IsOrder E.n order ∧
      (∀ i j, i < E.n → j < E.n → Ψ 0 i j ≠ 0 → Before order j i) ∧
      (∀ k, k ≤ p → ∀ i j, i < E.n → j < E.n → lagFn psis k i j = Ψ k i j) ∧
      ∀ k, k < q → ∀ i j, i < E.n → j < E.n →
        lagFn1 omegas (k + 1) i j = Ω (k + 1) i j - ∑ l ∈ range E.n, Ω (k + 1) i l * Ψ 0 l j := by
  obtain ⟨h1, h2, h3⟩ := hl f.resid hf.rows (fun i hi r => hf.resid r i (mem_range.1 hi))
  have hap : armaPart E o X = .ok (f.phis, f.thetas, f.order, f.resid) := by
    unfold armaPart
    rw [hest]
    rcases ha with ha | ha
    · rw [ha]
    · rw [ha]
      split
      · simp_all
      · rfl
  have hm : matrices E o X (f.phis.getD []) (f.thetas.getD []) f.order f.resid (E.lingam f.resid).1 (E.lingam f.resid).2 =
      .ok (calcPsi E.n (E.lingam f.resid).2 (f.phis.getD []) p, calcOmega E.n (E.lingam f.resid).2 (f.thetas.getD []) q) := by
    unfold matrices
    rw [if_neg, hp, hf.order]
    · rfl
    · rw [hf.order, hf.arCount, hf.maCount]
      simp
  have key : ∀ (M : Nat → Nat → ℚ) i j, i < E.n → j < E.n → mm E.n (oneSub (E.lingam f.resid).2) M i j =
      M i j - ∑ l ∈ range E.n, Ψ 0 i l * M l j := by
    intro M i j hi hj
    show mv E.n (oneSub _) (fun l => M l j) i = _
    rw [Var.mv_oneSub E.n _ _ hi]
    unfold mv
    rw [sum_congr rfl fun l hl => by rw [h3 i l hi (mem_range.1 hl)]]
  refine ⟨_, _, _, _, by unfold fit; rw [hap]; dsimp only; rw [hm], rfl, rfl, ?_, ?_, h1, h2, ?_, ?_⟩
  · unfold calcPsi
    simp [hf.arCount]
  · unfold calcOmega
    simp [hf.maCount]
  · intro k hk i j hi hj
    cases k with
    | zero => exact h3 i j hi hj
    | succ k =>
      have : lagFn (calcPsi E.n (E.lingam f.resid).2 (f.phis.getD []) p) (k + 1) =
          mm E.n (oneSub (E.lingam f.resid).2) (lagFn1 (f.phis.getD []) (k + 1)) := by
        have hkl : k < (f.phis.getD []).length := by rw [hf.arCount]; omega
        unfold calcPsi
        rw [List.take_of_length_le (by rw [hf.arCount])]
        exact lagFn1_map _ _ hkl
      rw [this, key _ _ _ hi hj]
      exact hf.ar k (by omega) i j hi hj
  · intro k hk i j hi hj
    have hkl : k < (f.thetas.getD []).length := by rw [hf.maCount]; exact hk
    unfold calcOmega
    rw [List.take_of_length_le (by rw [hf.maCount]), lagFn1_map _ _ hkl, key _ _ _ hi hj]
    exact hf.ma k hk i j hi hj

/-- **C190.** The reported `Ω_k` is the true one if and only if `Ω_k Ψ₀ = 0`. -/
theorem C190_omega_iff (E : Env ℚ) (o o' : Obj ℚ) (X : Data ℚ) (ha : o.ar = none ∨ o.ma = none) (hp : o.prune = false)
    {f : VarmaFit ℚ} (hest : estimate E o X = some f) {p q : Nat} {Ψ Ω : Nat → Nat → Nat → ℚ} {e : Nat → Fin N → ℚ}
    (hf : ReducedForm E.n N p q Ψ Ω e f) (hl : LingamRight (N := N) E.n E.lingam (Ψ 0) e) (h : fit E o X = .ok o')
    {psis omegas : List (Nat → Nat → ℚ)} (hadj : o'.adjacency = some (psis, omegas)) {k : Nat} (hk : k < q) :
    (∀ i j, i < E.n → j < E.n → lagFn1 omegas (k + 1) i j = Ω (k + 1) i j) ↔
      ∀ i j, i < E.n → j < E.n → ∑ l ∈ range E.n, Ω (k + 1) i l * Ψ 0 l j = 0 := by
  obtain ⟨o2, _, ps, os, h1, _, h2, _, _, _, _, _, h3⟩ := C190_recovered_partial E o X ha hp hest hf hl
  rw [h] at h1
  cases h1
  rw [hadj] at h2
  cases h2
  constructor
  · intro hr i j hi hj
    have := h3 k hk i j hi hj
    rw [hr i j hi hj] at this
    linarith
  · intro hz i j hi hj
    rw [h3 k hk i j hi hj, hz i j hi hj, sub_zero]

/-- **C190, violated.** As soon as there is an instantaneous effect of `j` on `i`, the simplest moving average, in which
every error has the same effect `c ≠ 0` on its own variable one step later and on nothing else, is misreported: an effect of
the past error of `j` on `i` appears that does not exist. -/
theorem C190_wrong_omega (E : Env ℚ) (o o' : Obj ℚ) (X : Data ℚ) (ha : o.ar = none ∨ o.ma = none) (hp : o.prune = false)
    {f : VarmaFit ℚ} (hest : estimate E o X = some f) {p q : Nat} {Ψ Ω : Nat → Nat → Nat → ℚ} {e : Nat → Fin N → ℚ}
    (hf : ReducedForm E.n N p q Ψ Ω e f) (hl : LingamRight (N := N) E.n E.lingam (Ψ 0) e) (h : fit E o X = .ok o')
    {psis omegas : List (Nat → Nat → ℚ)} (hadj : o'.adjacency = some (psis, omegas)) {k : Nat} (hk : k < q) {c : ℚ}
    (hc : c ≠ 0) (hΩ : ∀ i j, Ω (k + 1) i j = if i = j then c else 0) {i j : Nat} (hi : i < E.n) (hj : j < E.n) (hij : i ≠ j)
    (hΨ : Ψ 0 i j ≠ 0) : Ω (k + 1) i j = 0 ∧ lagFn1 omegas (k + 1) i j ≠ 0 := by
  obtain ⟨o2, _, ps, os, h1, _, h2, _, _, _, _, _, h3⟩ := C190_recovered_partial E o X ha hp hest hf hl
  rw [h] at h1
  cases h1
  rw [hadj] at h2
  cases h2
  refine ⟨by rw [hΩ, if_neg hij], ?_⟩
  rw [h3 k hk i j hi hj, hΩ, if_neg hij, zero_sub, neg_ne_zero, sum_eq_single i]
  · rw [hΩ, if_pos rfl]
    exact mul_ne_zero hc hΨ
  · intro l _ hl
    rw [hΩ, if_neg (Ne.symm hl), zero_mul]
  · intro hn
    exact absurd (mem_range.2 hi) hn

/-! ### C191: given coefficients -/

variable {K : Type} [Field K] [LinearOrder K] [IsStrictOrderedRing K]

/-- The residuals of a fit with given coefficients. -/
theorem given_residuals {E : Env K} {o o' : Obj K} {X : Data K} {phis thetas : List (Nat → Nat → K)}
    (ha : o.ar = some phis) (hm : o.ma = some thetas) (h : fit E o X = .ok o') :
    o'.residuals = some (calcResiduals E.n (E.noise X) X phis thetas) := by
  obtain ⟨p', t', pq, resid, ms, h3, h4, rfl⟩ := fit_ok h
  rw [armaPart_some ha hm] at h3
  simp only [Except.ok.injEq, Prod.mk.injEq] at h3
  obtain ⟨rfl, rfl, rfl, rfl⟩ := h3
  rfl

/-- The difference between the computed and the true innovations follows the moving average recursion. -/
theorem error_recursion (n N : Nat) (noise x u : Nat → Nat → K) (phis thetas : List (Nat → Nat → K)) {t : Nat}
    (ht : max phis.length thetas.length ≤ t) (hN : t < N)
    (hu : VarmaEq n phis.length thetas.length (lagFn1 phis) (lagFn1 thetas) x u t) {i : Nat} (hi : i < n) :
    epsilon n N noise x phis thetas t i - u t i =
      -∑ k ∈ range thetas.length, ∑ j ∈ range n, lagFn1 thetas (k + 1) i j *
        (epsilon n N noise x phis thetas (t - (k + 1)) j - u (t - (k + 1)) j) := by
  have h1 := epsilon_row n noise x phis thetas hN i
  rw [if_neg (by omega)] at h1
  unfold mv at h1
  rw [h1, hu i hi]
  have h3 : ∑ k ∈ range thetas.length, ∑ j ∈ range n, lagFn1 thetas (k + 1) i j *
        (epsilon n N noise x phis thetas (t - (k + 1)) j - u (t - (k + 1)) j) =
      ∑ k ∈ range thetas.length, ∑ j ∈ range n, lagFn1 thetas (k + 1) i j * epsilon n N noise x phis thetas (t - (k + 1)) j -
      ∑ k ∈ range thetas.length, ∑ j ∈ range n, lagFn1 thetas (k + 1) i j * u (t - (k + 1)) j := by
    rw [← sum_sub_distrib]
    refine sum_congr rfl fun k _ => ?_
    rw [← sum_sub_distrib]
    exact sum_congr rfl fun j _ => by ring
  rw [h3]
  ring

/-- **C191, partial.** Without a moving average part the residuals for given coefficients are exactly the innovations of the
series.  Missing: models with a moving average part, see `C191_moving_average`. -/
theorem C191_no_ma_partial (E : Env K) (o o' : Obj K) (X : Data K) (phis : List (Nat → Nat → K)) (ha : o.ar = some phis)
    (hm : o.ma = some []) (h : fit E o X = .ok o') {u : Nat → Nat → K}
    (hu : ∀ t, phis.length ≤ t → t < X.rows → VarmaEq E.n phis.length 0 (lagFn1 phis) (fun _ _ _ => 0) X.val u t) :
    ∃ R, o'.residuals = some R ∧ R.rows = X.rows - phis.length ∧
      ∀ r i, r < R.rows → i < E.n → R.val r i = u (r + phis.length) i := by
  refine ⟨_, given_residuals ha hm h, by simp [calcResiduals], ?_⟩
  intro r i hr hi
  simp only [calcResiduals, List.length_nil, Nat.max_zero] at hr ⊢
  have := error_recursion E.n X.rows (E.noise X) X.val u phis [] (t := r + phis.length) (by simp) (by omega) (fun i hi => by
    have := hu (r + phis.length) (by omega) (by omega) i hi
    simpa using this) hi
  simp only [List.length_nil, range_zero, sum_empty, neg_zero] at this
  linarith

/-- **C191, what happens.** With one moving average matrix `θ` the error of the random starting value is never corrected: the
residual of row `m` differs from the true innovation by `(-θ)^(m+1)` applied to the difference between the random starting
value and the true innovation there. -/
theorem C191_moving_average (E : Env K) (o o' : Obj K) (X : Data K) (phis : List (Nat → Nat → K)) (θ : Nat → Nat → K)
    (ha : o.ar = some phis) (hm : o.ma = some [θ]) (h : fit E o X = .ok o') {u : Nat → Nat → K}
    (hu : ∀ t, max phis.length 1 ≤ t → t < X.rows →
      VarmaEq E.n phis.length 1 (lagFn1 phis) (fun _ => θ) X.val u t) :
    ∃ R, o'.residuals = some R ∧ R.rows = X.rows - max phis.length 1 ∧
      ∀ m i, m < R.rows → i < E.n → R.val m i - u (m + max phis.length 1) i =
        (fun v : Nat → K => fun i => -∑ j ∈ range E.n, θ i j * v j)^[m + 1]
          (fun i => E.noise X (max phis.length 1 - 1) i - u (max phis.length 1 - 1) i) i := by
  refine ⟨_, given_residuals ha hm h, by simp [calcResiduals], ?_⟩
  intro m
  have hs : 1 ≤ max phis.length 1 := le_max_right _ _
  have hstep : ∀ m i, m + max phis.length 1 < X.rows → i < E.n →
      epsilon E.n X.rows (E.noise X) X.val phis [θ] (m + max phis.length 1) i - u (m + max phis.length 1) i =
      -∑ j ∈ range E.n, θ i j * (epsilon E.n X.rows (E.noise X) X.val phis [θ] (m + max phis.length 1 - 1) j -
        u (m + max phis.length 1 - 1) j) := by
    intro m i hm hi
    have := error_recursion E.n X.rows (E.noise X) X.val u phis [θ] (t := m + max phis.length 1) (by simp) hm (fun i hi => by
      have := hu (m + max phis.length 1) (by omega) hm i hi
      simpa [lagFn1] using this) hi
    simpa [lagFn1] using this
  have hmain : ∀ m i, m + max phis.length 1 < X.rows → i < E.n →
      epsilon E.n X.rows (E.noise X) X.val phis [θ] (m + max phis.length 1) i - u (m + max phis.length 1) i =
        (fun v : Nat → K => fun i => -∑ j ∈ range E.n, θ i j * v j)^[m + 1]
          (fun i => E.noise X (max phis.length 1 - 1) i - u (max phis.length 1 - 1) i) i := by
    intro m
    induction m with
    | zero =>
      intro i hm hi
      rw [hstep 0 i hm hi]
      simp only [zero_add, Function.iterate_one, neg_inj]
      refine sum_congr rfl fun j _ => ?_
      rw [epsilon_row _ _ _ _ _ (by omega), if_pos]
      simp only [List.length_singleton]
      omega
    | succ m ih =>
      intro i hm hi
      rw [hstep (m + 1) i hm hi, Function.iterate_succ_apply']
      rw [neg_inj]
      refine sum_congr rfl fun j hj => ?_
      have e1 : m + 1 + max phis.length 1 - 1 = m + max phis.length 1 := by omega
      rw [e1, ih j (by omega) (mem_range.1 hj)]
  intro i hr hi
  simp only [calcResiduals, List.length_singleton] at hr ⊢
  exact hmain m i (by omega) hi

/-- **C191, violated.** One variable, one moving average coefficient `θ`: every residual is off by exactly
`(-θ)^(m+1)` times the error of the random starting value.  For `|θ| < 1` the error fades; for `|θ| ≥ 1` it never becomes
smaller; for `θ ≠ 0` it is never zero, so two fits with different random numbers disagree about every residual. -/
theorem C191_never_exact (E : Env K) (o o' : Obj K) (X : Data K) (phis : List (Nat → Nat → K)) (θ : Nat → Nat → K)
    (hn : E.n = 1) (ha : o.ar = some phis) (hm : o.ma = some [θ]) (h : fit E o X = .ok o') {u : Nat → Nat → K}
    (hu : ∀ t, max phis.length 1 ≤ t → t < X.rows →
      VarmaEq 1 phis.length 1 (lagFn1 phis) (fun _ => θ) X.val u t)
    (hne : E.noise X (max phis.length 1 - 1) 0 ≠ u (max phis.length 1 - 1) 0) :
    ∃ R, o'.residuals = some R ∧ R.rows = X.rows - max phis.length 1 ∧ ∀ m, m < R.rows →
      R.val m 0 - u (m + max phis.length 1) 0 =
        (-θ 0 0) ^ (m + 1) * (E.noise X (max phis.length 1 - 1) 0 - u (max phis.length 1 - 1) 0) ∧
      (θ 0 0 ≠ 0 → R.val m 0 ≠ u (m + max phis.length 1) 0) ∧
      (1 ≤ |θ 0 0| → |E.noise X (max phis.length 1 - 1) 0 - u (max phis.length 1 - 1) 0| ≤
        |R.val m 0 - u (m + max phis.length 1) 0|) := by
  obtain ⟨R, h1, h2, h3⟩ := C191_moving_average E o o' X phis θ ha hm h (u := u) (by rw [hn]; exact hu)
  refine ⟨R, h1, h2, fun m hr => ?_⟩
  have hit : ∀ (k : Nat) (v : Nat → K), (fun v : Nat → K => fun i => -∑ j ∈ range E.n, θ i j * v j)^[k] v 0 =
      (-θ 0 0) ^ k * v 0 := by
    intro k
    induction k with
    | zero => intro v; simp
    | succ k ih =>
      intro v
      rw [Function.iterate_succ_apply, ih, hn]
      simp only [sum_range_one]
      ring
  have hd := h3 m 0 hr (by omega)
  rw [hit] at hd
  refine ⟨hd, ?_, ?_⟩
  · intro hθ he
    rw [he, sub_self] at hd
    exact mul_ne_zero (pow_ne_zero _ (neg_ne_zero.2 hθ)) (sub_ne_zero.2 hne) hd.symm
  · intro hθ
    rw [hd, abs_mul, abs_pow, abs_neg]
    exact le_mul_of_one_le_left (abs_nonneg _) (one_le_pow₀ hθ)

/-! ### Concrete cases -/

/-- Two variables, the first has the effect 1 on the second. -/
def recPsi : Nat → Nat → ℚ := fun i j => if i = 1 ∧ j = 0 then 1 else 0

/-- Errors of the two variables at four times. -/
def recErr : Nat → Fin 4 → ℚ := fun i r => if i = 0 then (if r.val < 2 then 1 else -1) else (if r.val % 2 = 0 then 1 else -1)

/-- What an exact estimation returns: no autoregressive part, `θ = 1/2 I`, residuals `(I - Ψ₀)⁻¹ e`. -/
def recFit : VarmaFit ℚ where
  phis := none
  thetas := some [fun i j => if i = j then 1 / 2 else 0]
  order := (0, 1)
  resid := ⟨4, fun r i => if h : r < 4 then (if i = 0 then recErr 0 ⟨r, h⟩ else recErr 0 ⟨r, h⟩ + recErr 1 ⟨r, h⟩) else 0⟩
  crit := none

/-- An environment with exact estimation and a LiNGAM method that knows the truth. -/
def recEnv : Env ℚ where
  n := 2
  varmax _ _ := recFit
  lingam _ := ([0, 1], recPsi)
  lasso _ _ _ _ _ := 0
  noise _ _ _ := 5

theorem rec_reduced : ReducedForm 2 4 0 1 (fun k => if k = 0 then recPsi else fun _ _ => 0)
    (fun _ i j => if i = j then 1 / 2 else 0) recErr recFit where
  order := rfl
  arCount := rfl
  maCount := rfl
  rows := rfl
  ar := fun k hk => absurd hk (Nat.not_lt_zero k)
  ma := by
    intro k hk i j hi hj
    obtain rfl : k = 0 := by omega
    interval_cases i <;> interval_cases j <;> decide +kernel
  resid := by
    intro r i hi
    interval_cases i <;> revert r <;> decide +kernel

theorem rec_lingam : LingamRight (N := 4) 2 recEnv.lingam recPsi recErr := by
  intro D _ _
  refine ⟨⟨by simp [recEnv], fun x => by simp only [recEnv, List.mem_cons, List.not_mem_nil, or_false]; omega⟩, ?_, fun i j _ _ => rfl⟩
  intro i j hi hj hne
  have : i = 1 ∧ j = 0 := by
    by_contra hcon
    exact hne (if_neg hcon)
  obtain ⟨rfl, rfl⟩ := this
  exact ⟨[], [], [], rfl⟩

/-- The hypotheses of C190 are met and the reported moving average matrix is wrong. -/
example : ∃ o' psis omegas, fit recEnv { ar := none, ma := none, order := (0, 1), useCriterion := false, prune := false } ⟨4, fun _ _ => 0⟩ =
      .ok o' ∧ o'.adjacency = some (psis, omegas) ∧ lagFn1 omegas 1 1 0 ≠ 0 := by
  obtain ⟨o', order, psis, omegas, h1, _, h2, _⟩ := C190_recovered_partial (N := 4) recEnv
    { ar := none, ma := none, order := (0, 1), useCriterion := false, prune := false } ⟨4, fun _ _ => 0⟩ (Or.inl rfl) rfl rfl rec_reduced rec_lingam
  exact ⟨o', psis, omegas, h1, h2, (C190_wrong_omega recEnv _ o' _ (Or.inl rfl) rfl rfl rec_reduced rec_lingam h1 h2
    (k := 0) (by decide) (c := 1 / 2) (by norm_num) (fun _ _ => rfl) (i := 1) (j := 0) (by decide) (by decide) (by decide)
    (by decide +kernel)).2⟩

/-- C191: the constant series 0 with `θ = 1`; all innovations are 0, all residuals are 5 or -5. -/
example : ∃ o' R, fit { recEnv with n := 1 }
      { ar := some [], ma := some [fun _ _ => 1], order := (0, 1), useCriterion := false, prune := false } ⟨4, fun _ _ => 0⟩ = .ok o' ∧
    o'.residuals = some R ∧ R.rows = 3 ∧ (List.range 3).map (fun m => R.val m 0) = [-5, 5, -5] :=
  ⟨_, _, rfl, rfl, rfl, by decide +kernel⟩

end Verif.Varma
