import Verif.Spec.Score
import Verif.Proofs.Score
import Mathlib.Analysis.SpecialFunctions.ImproperIntegrals
import Mathlib.Analysis.SpecialFunctions.Exponential
import Mathlib.Tactic.Linarith
import Mathlib.Tactic.NormNum
import Mathlib.Tactic.FinCases
import Mathlib.Tactic.IntervalCases

/-! Properties of the likelihoods and of the graph score of LiM. -/
set_option autoImplicit false
set_option linter.unusedSectionVars false
namespace Verif.Score

variable {N : Nat}

/-! ### C132: the likelihood of one variable -/

/-- Measuring the variables in other units, and converting the coefficients, changes the log-likelihood by a constant that
does not depend on the coefficients. -/
theorem C132_units {d : Nat} (x : Nat → Fin N → ℝ) (i : Nat) (b : Nat → ℝ) (b0 : ℝ) {c : Nat → ℝ} (hi : c i ≠ 0)
    (hc : ∀ j, j < d → c j ≠ 0) :
    likelihoodI d (fun j r => c j * x j r) i (fun j => b j * c i / c j) (c i * b0) =
      (likelihoodI d x i b b0).map (fun l => l - N * Real.log |c i|) := by
  have hdis : disturbance d (fun j r => c j * x j r) i (fun j => b j * c i / c j) = fun r => c i * disturbance d x i b r := by
    funext r
    unfold disturbance
    rw [mul_sub, Finset.mul_sum]
    congr 1
    refine Finset.sum_congr rfl fun j hj => ?_
    have := hc j (Finset.mem_range.1 hj)
    field_simp
  rw [likelihoodI_eq, likelihoodI_eq, hdis, var_smul]
  have : (fun r => c i * disturbance d x i b r - c i * b0) = fun r => c i * (disturbance d x i b r - b0) := by
    funext r; ring
  rw [this]
  exact likelihood_smul hi _ (var_nonneg _) _

/-- Moving the origin of the variables, and the intercept along, does not change the log-likelihood. -/
theorem C132_shift (d : Nat) (x : Nat → Fin N → ℝ) (i : Nat) (b : Nat → ℝ) (b0 : ℝ) (a : Nat → ℝ) :
    likelihoodI d (fun j r => x j r + a j) i b (b0 + a i - ∑ j ∈ Finset.range d, b j * a j) = likelihoodI d x i b b0 := by
  have hdis : disturbance d (fun j r => x j r + a j) i b =
      fun r => disturbance d x i b r + (a i - ∑ j ∈ Finset.range d, b j * a j) := by
    funext r
    unfold disturbance
    simp only [mul_add, Finset.sum_add_distrib]
    ring
  rw [likelihoodI_eq, likelihoodI_eq, hdis, var_add_const]
  congr 1
  funext r
  ring

/-- There is no answer (NaN) exactly when the variable is a combination of the others plus a constant. -/
theorem C132_nan {d : Nat} {x : Nat → Fin N → ℝ} {i : Nat} {b : Nat → ℝ} {b0 : ℝ} :
    likelihoodI d x i b b0 = none ↔ ∃ k, ∀ r, x i r = ∑ j ∈ Finset.range d, b j * x j r + k := by
  rw [likelihoodI_eq]
  unfold likelihood
  constructor
  · intro h
    by_cases hv : var (disturbance d x i b) = 0
    · refine ⟨mean (disturbance d x i b), fun r => ?_⟩
      have hN : (0 : ℝ) < N := by exact_mod_cast r.pos
      unfold var at hv
      rw [show (mean fun r => (disturbance d x i b r - mean (disturbance d x i b)) ^ 2) =
        (∑ r, (disturbance d x i b r - mean (disturbance d x i b)) ^ 2) / N from rfl, div_eq_zero_iff] at hv
      have hs := hv.resolve_right hN.ne'
      rw [Finset.sum_eq_zero_iff_of_nonneg fun r _ => sq_nonneg _] at hs
      have := pow_eq_zero_iff (two_ne_zero) |>.1 (hs r (Finset.mem_univ r))
      unfold disturbance at this ⊢
      linarith
    · rw [if_neg hv] at h; exact absurd h (by simp)
  · rintro ⟨k, hk⟩
    have hd : disturbance d x i b = fun _ => 0 + k := by
      funext r
      unfold disturbance
      rw [hk r]; ring
    have : var (disturbance d x i b) = 0 := by
      rw [hd, var_add_const k (fun _ => (0 : ℝ))]
      simp [var, mean]
    rw [if_pos this]

example : likelihoodI 2 (fun j (r : Fin 2) => if j = 0 then (r.val : ℝ) else 5) 0 (fun _ => 0) 0 ≠ none := by
  rw [Ne, C132_nan]
  rintro ⟨k, hk⟩
  have h0 := hk 0
  have h1 := hk 1
  simp at h0 h1
  linarith

/-! ### C133: the density behind it -/

/-- Up to a constant per observation, the log-likelihood is that of Laplace distributed disturbances whose standard
deviation is the empirical one. -/
theorem C133_laplace_partial {d : Nat} {x : Nat → Fin N → ℝ} {i : Nat} {b : Nat → ℝ} {b0 l : ℝ} (h : likelihoodI d x i b b0 = some l) :
    ∃ s, 0 < s ∧ (∃ m, (∑ r, (x i r - ∑ j ∈ Finset.range d, b j * x j r) = N * m) ∧
      N * s ^ 2 = ∑ r, (x i r - ∑ j ∈ Finset.range d, b j * x j r - m) ^ 2) ∧
      l = ∑ r, Real.log (laplaceDensity s (x i r - ∑ j ∈ Finset.range d, b j * x j r - b0)) + N * (Real.log 2 / 2 - 35 / 100) := by
  rw [likelihoodI_eq] at h
  unfold likelihood at h
  by_cases hv : var (disturbance d x i b) = 0
  · rw [if_pos hv] at h; exact absurd h (by simp)
  · rw [if_neg hv, Option.some.injEq] at h
    have hpos : 0 < var (disturbance d x i b) := lt_of_le_of_ne (var_nonneg _) (Ne.symm hv)
    have hs := Real.sqrt_pos.2 hpos
    have hN : (N : ℝ) ≠ 0 := by
      intro h0
      apply hv
      unfold var mean
      rw [h0, div_zero]
    refine ⟨√(var (disturbance d x i b)), hs, ⟨mean (disturbance d x i b), ?_, ?_⟩, ?_⟩
    · change ∑ r, disturbance d x i b r = _
      unfold mean
      field_simp
    · rw [Real.sq_sqrt hpos.le]
      unfold var
      rw [mean_eq, mul_div_cancel₀ _ hN]
      rfl
    · rw [← h]
      have : ∀ r, Real.log (laplaceDensity (√(var (disturbance d x i b))) (x i r - ∑ j ∈ Finset.range d, b j * x j r - b0)) =
          logP ((disturbance d x i b r - b0) / √(var (disturbance d x i b))) + (35 / 100 - Real.log 2 / 2 -
            Real.log √(var (disturbance d x i b))) := by
        intro r
        have h2 : √2 ≠ 0 := by positivity
        unfold laplaceDensity
        rw [Real.log_mul (by positivity) (Real.exp_ne_zero _), Real.log_exp, one_div, Real.log_inv, Real.log_mul h2 hs.ne',
          Real.log_sqrt (by norm_num)]
        unfold logP
        rw [abs_div, abs_of_pos hs]
        change _ + -(√2 * |disturbance d x i b r - b0| / _) = _
        ring
      simp only [this, Finset.sum_add_distrib, Finset.sum_const, Finset.card_univ, Fintype.card_fin, nsmul_eq_mul]
      ring

/-- The documented density is not one: the integral of the exponential of `log_p_super_gaussian` is not one. -/
theorem C133_density_violated : (∫ s, Real.exp (logP s)) = √2 * Real.exp (-(35 / 100)) ∧ (∫ s, Real.exp (logP s)) < 1 := by
  have h2 : (0 : ℝ) < √2 := by positivity
  have key : (∫ s, Real.exp (logP s)) = √2 * Real.exp (-(35 / 100)) := by
    simp only [exp_logP]
    rw [MeasureTheory.integral_const_mul]
    have e := integral_comp_abs (f := fun s => Real.exp (-√2 * s))
    have e2 := integral_exp_mul_Ioi (a := -√2) (by linarith) 0
    simp only [neg_mul] at e e2
    rw [e, e2]
    simp only [mul_zero, neg_zero, Real.exp_zero]
    have := Real.mul_self_sqrt (show (0 : ℝ) ≤ 2 by norm_num)
    field_simp
    linarith
  refine ⟨key, ?_⟩
  rw [key]
  have he : (2 : ℝ) < Real.exp (70 / 100) := by
    have := Real.sum_le_exp_of_nonneg (show (0 : ℝ) ≤ 70 / 100 by norm_num) 6
    refine lt_of_lt_of_le ?_ this
    norm_num [Finset.sum_range_succ, Nat.factorial]
  have h3 : (√2 * Real.exp (-(35 / 100))) ^ 2 < 1 := by
    rw [mul_pow, Real.sq_sqrt (by norm_num), ← Real.exp_nat_mul]
    have : ((2 : ℕ) : ℝ) * (-(35 / 100)) = -(70 / 100) := by norm_num
    rw [this, Real.exp_neg, ← div_eq_mul_inv, div_lt_one (Real.exp_pos _)]
    exact he
  nlinarith [mul_pos h2 (Real.exp_pos (-(35 / 100)))]

example : ∃ l, likelihoodI 1 (fun _ (r : Fin 2) => (r.val : ℝ)) 0 (fun _ => 0) 0 = some l := by
  rw [← Option.isSome_iff_exists, Option.isSome_iff_ne_none, Ne, C132_nan]
  rintro ⟨k, hk⟩
  have h0 := hk 0
  have h1 := hk 1
  simp at h0 h1
  linarith

/-! ### C136: the score of a graph is a sum over the variables -/

/-- Changing the parents of one variable changes the score by an amount that depends only on its old and its new parents,
not on the rest of the graph. -/
theorem C136_local {R : Routines N} {discrete : Nat → Bool} {poisson : Bool} {d : Nat} {x : Nat → Fin N → ℝ}
    {W₁ V₁ W₂ V₂ : Nat → Nat → ℝ} {i : Nat} (h₁ : ∀ j k, k ≠ i → (W₁ j k = 0 ↔ V₁ j k = 0)) (h₂ : ∀ j k, k ≠ i → (W₂ j k = 0 ↔ V₂ j k = 0))
    (hW : ∀ j, W₁ j i = 0 ↔ W₂ j i = 0) (hV : ∀ j, V₁ j i = 0 ↔ V₂ j i = 0) {s₁ t₁ s₂ t₂ : ℝ}
    (e₁ : score R discrete poisson d x W₁ = some s₁) (f₁ : score R discrete poisson d x V₁ = some t₁)
    (e₂ : score R discrete poisson d x W₂ = some s₂) (f₂ : score R discrete poisson d x V₂ = some t₂) : t₁ - s₁ = t₂ - s₂ := by
  rw [(score_some e₁).2, (score_some f₁).2, (score_some e₂).2, (score_some f₂).2, ← Finset.sum_sub_distrib, ← Finset.sum_sub_distrib]
  refine Finset.sum_congr rfl fun k _ => ?_
  by_cases hk : k = i
  · subst hk
    rw [parents_congr (W' := W₂) fun j _ => not_congr (hW j), parents_congr (W := V₁) (W' := V₂) fun j _ => not_congr (hV j)]
  · rw [parents_congr (W' := V₁) fun j _ => not_congr (h₁ j k hk), parents_congr (W := W₂) (W' := V₂) fun j _ => not_congr (h₂ j k hk),
      sub_self, sub_self]

/-- Only which coefficients are zero matters for the score, not their values. -/
theorem C136_pattern {R : Routines N} {discrete : Nat → Bool} {poisson : Bool} {d : Nat} {x : Nat → Fin N → ℝ} {W V : Nat → Nat → ℝ}
    (h : ∀ i j, i < d → j < d → (W j i = 0 ↔ V j i = 0)) : score R discrete poisson d x W = score R discrete poisson d x V := by
  have : ∀ i, i < d → parents d W i = parents d V i := fun i hi => parents_congr fun j hj => not_congr (h i j hi hj)
  unfold score edges
  congr 1
  · funext t
    congr 4
    exact congrArg List.sum (List.map_congr_left fun i hi => by rw [this i (List.mem_range.1 hi)])
  · congr 1
    exact List.map_congr_left fun i hi => by rw [this i (List.mem_range.1 hi)]

example : ∃ W V : Nat → Nat → ℝ, (∃ s, score ⟨fun _ _ => 0, fun _ _ => 0, fun _ _ => ([], 0)⟩ (fun _ => true) true 2
      (fun j (r : Fin 2) => if j = 0 then (r.val : ℝ) else 5) W = some s) ∧
    (∃ s, score ⟨fun _ _ => 0, fun _ _ => 0, fun _ _ => ([], 0)⟩ (fun _ => true) true 2
      (fun j (r : Fin 2) => if j = 0 then (r.val : ℝ) else 5) V = some s) ∧ (∀ j k, k ≠ 1 → (W j k = 0 ↔ V j k = 0)) ∧ W 0 1 = 0 ∧ V 0 1 ≠ 0 := by
  refine ⟨fun _ _ => 0, fun j k => if j = 0 ∧ k = 1 then 1 else 0, ⟨_, score_isSome fun i _ => ?_⟩, ⟨_, score_isSome fun i _ => ?_⟩, ?_, rfl, ?_⟩
  · unfold localScore; split_ifs <;> simp_all
  · unfold localScore; split_ifs <;> simp_all
  · intro j k hk; simp [hk]
  · simp

/-! ### C137: count variables -/

/-- The statement one would like, that a count variable enters with its Poisson log-likelihood, is wrong.  First, of several
parents only the one with the largest index matters: apart from the penalty for the number of edges, the score is the same
for any two graphs in which these last parents agree. -/
theorem C137_last_parent_violated {R : Routines N} {discrete : Nat → Bool} {d : Nat} {x : Nat → Fin N → ℝ} {W V : Nat → Nat → ℝ}
    (hc : ∀ i, i < d → discrete i = false → ∀ j, W j i = 0 ↔ V j i = 0)
    (hd : ∀ i, i < d → discrete i = true → (∀ j, j < d → W j i = 0 ∧ V j i = 0) ∨
      ∃ p, p < d ∧ W p i ≠ 0 ∧ V p i ≠ 0 ∧ ∀ q, p < q → W q i = 0 ∧ V q i = 0)
    {s t : ℝ} (e : score R discrete true d x W = some s) (f : score R discrete true d x V = some t) :
    t - s = Real.log N / 2 * ((((Finset.range d ×ˢ Finset.range d).filter (fun p => W p.1 p.2 ≠ 0)).card : ℝ) -
      ((Finset.range d ×ˢ Finset.range d).filter (fun p => V p.1 p.2 ≠ 0)).card) := by
  have hloc : ∀ i, i < d → localScore R discrete true d x (parents d W i) i = localScore R discrete true d x (parents d V i) i := by
    intro i hi
    by_cases hdi : discrete i = true
    · rcases hd i hi hdi with h | ⟨p, hp, h1, h2, h3⟩
      · rw [parents_congr (W' := V) fun j hj => not_congr ⟨fun _ => (h j hj).2, fun _ => (h j hj).1⟩]
      · obtain ⟨l, hl⟩ := last_of_sorted (pairwise_parents d W i) (mem_parents.2 ⟨hp, h1⟩) fun q hq => by
          by_contra hc; exact (mem_parents.1 hq).2 (h3 q (by omega)).1
        obtain ⟨l', hl'⟩ := last_of_sorted (pairwise_parents d V i) (mem_parents.2 ⟨hp, h2⟩) fun q hq => by
          by_contra hc; exact (mem_parents.1 hq).2 (h3 q (by omega)).2
        rw [hl, hl']
        unfold localScore
        have n1 : l ++ [p] ≠ [] := by simp
        have n2 : l' ++ [p] ≠ [] := by simp
        rw [if_pos hdi, if_pos hdi, if_neg n1, if_neg n2, if_pos rfl, if_pos rfl, List.map_append, List.map_append,
          List.map_singleton, poissonTerm_append, poissonTerm_append]
    · rw [parents_congr (W' := V) fun j _ => not_congr (hc i hi (by simpa using hdi) j)]
  rw [(score_some e).2, (score_some f).2, ← Finset.sum_sub_distrib]
  unfold share
  rw [Finset.sum_congr rfl (g := fun i => Real.log N / 2 * (((parents d W i).length : ℝ) - (parents d V i).length))
    fun i hi => by rw [hloc i (Finset.mem_range.1 hi)]; ring, ← Finset.mul_sum, Finset.sum_sub_distrib, ← card_edges, ← card_edges]

/-- Second, the sign is reversed: in the system with a count variable and one parent, a coefficient under which the counts are
more likely gives a lower score. -/
theorem C137_sign_violated {R R' : Routines N} {x : Nat → Fin N → ℝ} {k : Fin N → ℕ} (hk : ∀ r, x 1 r = k r)
    {W : Nat → Nat → ℝ} (h01 : W 0 1 ≠ 0) (h10 : W 1 0 = 0) (h00 : W 0 0 = 0) (h11 : W 1 1 = 0) {s s' : ℝ}
    (h : score R (fun _ => true) true 2 x W = some s) (h' : score R' (fun _ => true) true 2 x W = some s') :
    s - s' = poissonLogLik (fun r => x 0 r * R'.beta (x 0) (x 1)) k - poissonLogLik (fun r => x 0 r * R.beta (x 0) (x 1)) k := by
  have p0 : parents 2 W 0 = [] := by
    rw [List.eq_nil_iff_forall_not_mem]
    intro j hj
    obtain ⟨hj, hz⟩ := mem_parents.1 hj
    interval_cases j
    · exact hz h00
    · exact hz h10
  have p1 : parents 2 W 1 = [0] := by
    obtain ⟨l, hl⟩ := last_of_sorted (pairwise_parents 2 W 1) (p := 0) (mem_parents.2 ⟨by omega, h01⟩) fun q hq => by
      obtain ⟨hq, hz⟩ := mem_parents.1 hq
      interval_cases q
      · omega
      · exact absurd h11 hz
    cases l with
    | nil => exact hl
    | cons a l =>
      have hpw := pairwise_parents 2 W 1
      rw [hl, List.cons_append, List.pairwise_cons] at hpw
      have := hpw.1 0 (by simp)
      omega
  have hp : ∀ R : Routines N, poissonOf R (x 0) (x 1) = -poissonLogLik (fun r => x 0 r * R.beta (x 0) (x 1)) k := by
    intro R
    unfold poissonOf poissonLogLik
    simp only [hk, factorial_natCast, Finset.sum_sub_distrib, mul_assoc]
    ring
  rw [(score_some h).2, (score_some h').2]
  simp only [Finset.sum_range_succ, Finset.sum_range_zero, p0, p1, share, localScore, if_true, List.map_singleton, Option.getD_some,
    List.cons_ne_self, if_false]
  have : ∀ R : Routines N, poissonTerm R [x 0] (x 1) = poissonOf R (x 0) (x 1) := fun R => poissonTerm_append R [] (x 0) (x 1)
  rw [this, this, hp, hp]
  ring

example : ∃ (x : Nat → Fin 1 → ℝ) (k : Fin 1 → ℕ), (∀ r, x 1 r = k r) ∧
    poissonLogLik (fun r => x 0 r * 0) k < poissonLogLik (fun r => x 0 r * -1) k := by
  refine ⟨fun j _ => if j = 0 then 1 else 0, fun _ => 0, by simp, ?_⟩
  simp [poissonLogLik]

example : ∃ W V : Nat → Nat → ℝ, W 0 2 ≠ 0 ∧ V 0 2 = 0 ∧ (∀ i, i < 3 → true = true → (∀ j, j < 3 → W j i = 0 ∧ V j i = 0) ∨
    ∃ p, p < 3 ∧ W p i ≠ 0 ∧ V p i ≠ 0 ∧ ∀ q, p < q → W q i = 0 ∧ V q i = 0) := by
  refine ⟨fun j i => if i = 2 ∧ j < 2 then 1 else 0, fun j i => if i = 2 ∧ j = 1 then 1 else 0, by simp, by simp, fun i hi _ => ?_⟩
  interval_cases i
  · left; simp
  · left; simp
  · right
    refine ⟨1, by omega, by simp, by simp, fun q hq => ?_⟩
    have : ¬ q < 2 := by omega
    have : q ≠ 1 := by omega
    simp [*]

/-! ### C138: discrete variables without parents -/

/-- Discrete variables without parents enter with the largest log-likelihood that any distribution of their values has. -/
theorem C138_frequency {R : Routines N} {poisson : Bool} {d : Nat} {x : Nat → Fin N → ℝ} {W : Nat → Nat → ℝ}
    (hW : ∀ i j, i < d → j < d → W j i = 0) :
    ∃ L : Nat → ℝ, (∀ i, IsMaxLogLik (x i) (L i)) ∧
      score R (fun _ => true) poisson d x W = some (∑ i ∈ Finset.range d, L i - Real.log N / 2 * d) := by
  refine ⟨fun i => frequency (x i), fun i => ⟨fun q hq => ?_, relative (x i), ⟨fun v => ?_, relative_pos (x i), sum_relative (x i)⟩, ?_⟩, ?_⟩
  · classical
    simp only
    rw [frequency_eq, ← sub_nonpos, ← Finset.sum_sub_distrib]
    have h1 : ∀ r, Real.log (q (x i r)) - Real.log (relative (x i) (x i r)) ≤ q (x i r) / relative (x i) (x i r) - 1 := by
      intro r
      rw [← Real.log_div (hq.2.1 r).ne' (relative_pos (x i) r).ne']
      exact Real.log_le_sub_one_of_pos (div_pos (hq.2.1 r) (relative_pos (x i) r))
    refine (Finset.sum_le_sum fun r _ => h1 r).trans ?_
    rw [Finset.sum_sub_distrib, sum_fiber (x i) (fun v => q v / relative (x i) v)]
    have h2 : ∀ v ∈ Finset.univ.image (x i), ((Finset.univ.filter (fun r => x i r = v)).card : ℝ) * (q v / relative (x i) v) = N * q v := by
      intro v hv
      obtain ⟨r, -, rfl⟩ := Finset.mem_image.1 hv
      have hN : (N : ℝ) ≠ 0 := by exact_mod_cast r.pos.ne'
      have hr := relative_pos (x i) r
      have hcr : ((Finset.univ.filter (fun s => x i s = x i r)).card : ℝ) = N * relative (x i) (x i r) := by
        unfold relative
        rw [mul_div_cancel₀ _ hN]
      rw [hcr]
      field_simp
    rw [Finset.sum_congr rfl h2, ← Finset.mul_sum]
    have h3 := hq.2.2 (Finset.univ.image (x i))
    have hN : (0 : ℝ) ≤ N := Nat.cast_nonneg N
    simp only [Finset.sum_const, Finset.card_univ, Fintype.card_fin, nsmul_eq_mul, mul_one]
    nlinarith
  · unfold relative; positivity
  · exact (frequency_eq (x i)).symm
  · have hp : ∀ i, i < d → parents d W i = [] := by
      intro i hi
      rw [List.eq_nil_iff_forall_not_mem]
      intro j hj
      obtain ⟨hj, hz⟩ := mem_parents.1 hj
      exact hz (hW i j hi hj)
    rw [score_isSome fun i hi => by rw [hp i hi]; simp [localScore]]
    congr 1
    rw [Finset.sum_congr rfl (g := fun i => frequency (x i) - Real.log N / 2) fun i hi => by
      rw [hp i (Finset.mem_range.1 hi)]; simp [share, localScore]]
    rw [Finset.sum_sub_distrib]
    simp
    ring

/-! ### C139: units and origins -/

/-- For continuous data the units and origins of the variables change the score of every graph by the same amount. -/
theorem C139_units {R : Routines N} {discrete : Nat → Bool} {poisson : Bool} {d : Nat} {x : Nat → Fin N → ℝ} {W : Nat → Nat → ℝ}
    {c a : Nat → ℝ} (hcont : ∀ i, i < d → discrete i = false) (hc : ∀ i, i < d → c i ≠ 0)
    (hR : ∀ i, i < d → parents d W i ≠ [] → NormalEquations (R.linear ((parents d W i).map x) (x i)) ((parents d W i).map x) (x i) ∧
      NormalEquations (R.linear ((parents d W i).map (fun j r => c j * x j r + a j)) (fun r => c i * x i r + a i))
        ((parents d W i).map (fun j r => c j * x j r + a j)) (fun r => c i * x i r + a i)) :
    score R discrete poisson d (fun j r => c j * x j r + a j) W =
      (score R discrete poisson d x W).map (fun s => s - N * ∑ i ∈ Finset.range d, Real.log |c i|) := by
  have hloc : ∀ i ∈ List.range d, localScore R discrete poisson d (fun j r => c j * x j r + a j) (parents d W i) i =
      (localScore R discrete poisson d x (parents d W i) i).map (· - N * Real.log |c i|) := by
    intro i hi
    have hi := List.mem_range.1 hi
    have hmem : ∀ j ∈ parents d W i, j < d := fun j hj => (mem_parents.1 hj).1
    have key : ∀ res res', IsRegressionResidual (parents d W i) x (x i) res →
        IsRegressionResidual (parents d W i) (fun j r => c j * x j r + a j) (fun r => c i * x i r + a i) res' →
        likelihood (var res') res' = (likelihood (var res) res).map (· - N * Real.log |c i|) := by
      intro res res' h h'
      have h2 := residual_units (a := a) (fun j hj => hc j (hmem j hj)) h
      rw [DataUtils.residual_unique h' h2, var_smul]
      exact likelihood_smul (hc i hi) _ (var_nonneg _) _
    unfold localScore
    rw [hcont i hi]
    simp only [Bool.false_eq_true, if_false]
    by_cases hp : parents d W i = []
    · rw [if_pos hp, if_pos hp]
      obtain ⟨res, h1, h2⟩ := likelihoodI_no_parents d x i
      obtain ⟨res', h1', h2'⟩ := likelihoodI_no_parents d (fun j r => c j * x j r + a j) i
      rw [h2, h2']
      exact key res res' (by rw [hp]; exact h1) (by rw [hp]; exact h1')
    · rw [if_neg hp, if_neg hp]
      obtain ⟨res, h1, h2⟩ := likelihoodI_residual (d := d) (nodup_parents d W i) hmem (hR i hi hp).1
      obtain ⟨res', h1', h2'⟩ := likelihoodI_residual (d := d) (x := fun j r => c j * x j r + a j) (i := i) (nodup_parents d W i) hmem (hR i hi hp).2
      rw [h2, h2']
      exact key res res' h1 h1'
  unfold score
  rw [sumNan_map hloc, Option.map_map, Option.map_map]
  congr 1
  funext s
  have : ((List.range d).map (fun i => (N : ℝ) * Real.log |c i|)).sum = N * ∑ i ∈ Finset.range d, Real.log |c i| := by
    rw [← List.sum_toFinset _ List.nodup_range, List.toFinset_range, Finset.mul_sum]
  simp only [Function.comp_apply, this]
  ring

/-- So which of two graphs has the higher score does not depend on the units and origins. -/
theorem C139_comparison {R : Routines N} {discrete : Nat → Bool} {poisson : Bool} {d : Nat} {x : Nat → Fin N → ℝ} {W V : Nat → Nat → ℝ}
    {c a : Nat → ℝ} (hcont : ∀ i, i < d → discrete i = false) (hc : ∀ i, i < d → c i ≠ 0)
    (hR : ∀ U : Nat → Nat → ℝ, U = W ∨ U = V → ∀ i, i < d → parents d U i ≠ [] →
      NormalEquations (R.linear ((parents d U i).map x) (x i)) ((parents d U i).map x) (x i) ∧
      NormalEquations (R.linear ((parents d U i).map (fun j r => c j * x j r + a j)) (fun r => c i * x i r + a i))
        ((parents d U i).map (fun j r => c j * x j r + a j)) (fun r => c i * x i r + a i))
    {s t : ℝ} (hs : score R discrete poisson d x W = some s) (ht : score R discrete poisson d x V = some t) :
    ∃ s' t', score R discrete poisson d (fun j r => c j * x j r + a j) W = some s' ∧
      score R discrete poisson d (fun j r => c j * x j r + a j) V = some t' ∧ (s' < t' ↔ s < t) := by
  rw [C139_units hcont hc (hR W (.inl rfl)), C139_units hcont hc (hR V (.inr rfl)), hs, ht]
  exact ⟨_, _, rfl, rfl, sub_lt_sub_iff_right _⟩

/-- Least squares through two points. -/
noncomputable def throughTwo (cols : List (Fin 2 → ℝ)) (y : Fin 2 → ℝ) : List ℝ × ℝ :=
  match cols with
  | [u] => ([(y 1 - y 0) / (u 1 - u 0)], y 0 - (y 1 - y 0) / (u 1 - u 0) * u 0)
  | _ => ([], 0)

example (u y : Fin 2 → ℝ) (h : u 1 - u 0 ≠ 0) : NormalEquations (throughTwo [u] y) [u] y := by
  have e : ∀ r, y r - ((throughTwo [u] y).2 + (((throughTwo [u] y).1.zip [u]).map (fun p => p.1 * p.2 r)).sum) = 0 := by
    intro r
    fin_cases r
    · simp [throughTwo]
    · simp [throughTwo]; field_simp; ring
  refine ⟨rfl, ?_, ?_⟩
  · simp only [e, Finset.sum_const_zero]
  · intro c _; simp only [e, zero_mul, Finset.sum_const_zero]

end Verif.Score
