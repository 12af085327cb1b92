import Verif.Props.Hsic
import Verif.Spec.Independent
import Mathlib.LinearAlgebra.Lagrange

/-! C231: the HSIC statistic is zero exactly for exactly independent samples. -/
set_option autoImplicit false
set_option linter.unusedSectionVars false
namespace Verif.Hsic
open Finset

variable {ι : Type} [Fintype ι]

theorem exp_hasSum (L : ι → ι → ℝ) (x : ι → ℝ) (s : ℝ) (c : ι → ℝ) :
    HasSum (fun m : Nat => s ^ m / (m.factorial : ℝ) * ∑ i, ∑ j, (c i * x i ^ m) * (c j * x j ^ m) * L i j)
      (∑ i, ∑ j, c i * c j * (Real.exp (s * (x i * x j)) * L i j)) := by
  have h1 : ∀ i j, HasSum (fun m : Nat => c i * c j * L i j * ((s * (x i * x j)) ^ m / (m.factorial : ℝ))) (c i * c j * L i j * Real.exp (s * (x i * x j))) := by
    intro i j
    refine HasSum.mul_left _ ?_
    rw [Real.exp_eq_exp_ℝ]
    exact NormedSpace.expSeries_div_hasSum_exp _
  have h2 := hasSum_sum (s := univ) (fun i _ => hasSum_sum (s := univ) (fun j _ => h1 i j))
  have e1 : ∑ i, ∑ j, c i * c j * (Real.exp (s * (x i * x j)) * L i j) = ∑ i, ∑ j, c i * c j * L i j * Real.exp (s * (x i * x j)) :=
    Finset.sum_congr rfl fun i _ => Finset.sum_congr rfl fun j _ => by ring
  have e2 : (fun m : Nat => s ^ m / (m.factorial : ℝ) * ∑ i, ∑ j, (c i * x i ^ m) * (c j * x j ^ m) * L i j) =
      fun m : Nat => ∑ i, ∑ j, c i * c j * L i j * ((s * (x i * x j)) ^ m / (m.factorial : ℝ)) := by
    funext m
    simp only [Finset.mul_sum]
    refine Finset.sum_congr rfl fun i _ => Finset.sum_congr rfl fun j _ => ?_
    rw [mul_pow, mul_pow]
    ring
  rw [e1, e2]
  exact h2

theorem exp_form_nonneg {L : ι → ι → ℝ} (hL : ∀ c : ι → ℝ, 0 ≤ ∑ i, ∑ j, c i * c j * L i j) (x : ι → ℝ) {s : ℝ} (hs : 0 < s) (c : ι → ℝ) :
    0 ≤ ∑ i, ∑ j, c i * c j * (Real.exp (s * (x i * x j)) * L i j) :=
  (exp_hasSum L x s c).nonneg fun m => mul_nonneg (by positivity) (hL _)

theorem exp_form_zero {L : ι → ι → ℝ} (hL : ∀ c : ι → ℝ, 0 ≤ ∑ i, ∑ j, c i * c j * L i j) (x : ι → ℝ) {s : ℝ} (hs : 0 < s) (c : ι → ℝ)
    (h : ∑ i, ∑ j, c i * c j * (Real.exp (s * (x i * x j)) * L i j) = 0) (m : Nat) :
    ∑ i, ∑ j, (c i * x i ^ m) * (c j * x j ^ m) * L i j = 0 := by
  have h1 := exp_hasSum L x s c
  rw [h] at h1
  have h2 := congrFun ((hasSum_zero_iff_of_nonneg (fun m => mul_nonneg (by positivity) (hL _))).1 h1) m
  simp only [Pi.zero_apply] at h2
  rcases mul_eq_zero.1 h2 with h3 | h3
  · exact absurd h3 (by positivity)
  · exact h3

theorem interpolated (x : ι → ℝ) (f : ℝ → ℝ) : ∃ P : Polynomial ℝ, ∀ i, P.eval (x i) = f (x i) := by
  classical
  refine ⟨Lagrange.interpolate (univ.image x) id f, fun i => ?_⟩
  exact Lagrange.eval_interpolate_at_node (s := univ.image x) (v := id) (i := x i) f (Set.injOn_id _) (Finset.mem_image_of_mem x (Finset.mem_univ i))

theorem product_form_nonneg {κ : Type} [DecidableEq κ] (z : ι → κ → ℝ) {s : κ → ℝ} (hs : ∀ k, 0 < s k) (T : Finset κ) (c : ι → ℝ) :
    0 ≤ ∑ i, ∑ j, c i * c j * ∏ k ∈ T, Real.exp (s k * (z i k * z j k)) := by
  induction T using Finset.induction_on generalizing c with
  | empty =>
    simp only [Finset.prod_empty, mul_one, ← Finset.mul_sum, ← Finset.sum_mul]
    exact mul_self_nonneg _
  | insert a T ha ih =>
    simp only [Finset.prod_insert ha]
    exact exp_form_nonneg ih (fun i => z i a) (hs a) c

/-- If the quadratic form of a product of exponential kernels vanishes, the weighted sums of all products of functions vanish. -/
theorem product_form_zero {κ : Type} [DecidableEq κ] (z : ι → κ → ℝ) {s : κ → ℝ} (hs : ∀ k, 0 < s k) (T : Finset κ) (c : ι → ℝ)
    (h : ∑ i, ∑ j, c i * c j * ∏ k ∈ T, Real.exp (s k * (z i k * z j k)) = 0) (f : κ → ℝ → ℝ) :
    ∑ i, c i * ∏ k ∈ T, f k (z i k) = 0 := by
  induction T using Finset.induction_on generalizing c with
  | empty =>
    simp only [Finset.prod_empty, mul_one, ← Finset.mul_sum, ← Finset.sum_mul] at h ⊢
    exact mul_self_eq_zero.1 h
  | insert a T ha ih =>
    simp only [Finset.prod_insert ha] at h ⊢
    have h1 : ∀ m : Nat, ∑ i, c i * z i a ^ m * ∏ k ∈ T, f k (z i k) = 0 := fun m =>
      ih _ (exp_form_zero (product_form_nonneg z hs T) (fun i => z i a) (hs a) c h m)
    obtain ⟨P, hP⟩ := interpolated (fun i => z i a) (f a)
    have e : ∀ i, c i * (f a (z i a) * ∏ k ∈ T, f k (z i k)) =
        ∑ m ∈ range (P.natDegree + 1), P.coeff m * (c i * z i a ^ m * ∏ k ∈ T, f k (z i k)) := by
      intro i
      rw [← hP, Polynomial.eval_eq_sum_range, Finset.sum_mul, Finset.mul_sum]
      exact Finset.sum_congr rfl fun m _ => by ring
    rw [Finset.sum_congr rfl fun i _ => e i, Finset.sum_comm]
    refine Finset.sum_eq_zero fun m _ => ?_
    rw [← Finset.mul_sum, h1, mul_zero]

/-- The same for arbitrary functions of two vectors of coordinates. -/
theorem functions_zero {d e : Nat} (x : ι → Fin d → ℝ) (y : ι → Fin e → ℝ) {s t : ℝ} (hs : 0 < s) (ht : 0 < t) (c : ι → ℝ)
    (h : ∑ i, ∑ j, c i * c j * ((∏ k, Real.exp (s * (x i k * x j k))) * ∏ k, Real.exp (t * (y i k * y j k))) = 0)
    (f : (Fin d → ℝ) → ℝ) (g : (Fin e → ℝ) → ℝ) : ∑ i, c i * f (x i) * g (y i) = 0 := by
  classical
  have key := product_form_zero (κ := Fin d ⊕ Fin e) (fun i => Sum.elim (x i) (y i)) (s := Sum.elim (fun _ => s) (fun _ => t))
    (by rintro (k | k); exact hs; exact ht) univ c (by
      rw [← h]
      refine Finset.sum_congr rfl fun i _ => Finset.sum_congr rfl fun j _ => ?_
      rw [Fintype.prod_sum_type]
      rfl)
  have pr : ∀ (m : Nat) (a b : Fin m → ℝ), (∏ k, if a k = b k then (1 : ℝ) else 0) = if a = b then 1 else 0 := by
    intro m a b
    by_cases hab : a = b
    · subst hab; simp
    · rw [if_neg hab]
      obtain ⟨k, hk⟩ := Function.ne_iff.1 hab
      exact Finset.prod_eq_zero (Finset.mem_univ k) (if_neg hk)
  have ind : ∀ (u : Fin d → ℝ) (v : Fin e → ℝ), ∑ i, c i * ((if x i = u then 1 else 0) * (if y i = v then 1 else 0)) = 0 := by
    intro u v
    have := key (Sum.elim (fun k w => if w = u k then 1 else 0) (fun k w => if w = v k then 1 else 0))
    refine Eq.trans (Finset.sum_congr rfl fun i _ => ?_) this
    rw [Fintype.prod_sum_type]
    simp only [Sum.elim_inl, Sum.elim_inr]
    rw [pr, pr]
  have e1 : ∀ i, c i * f (x i) * g (y i) = ∑ u ∈ univ.image x, ∑ v ∈ univ.image y,
      f u * g v * (c i * ((if x i = u then 1 else 0) * (if y i = v then 1 else 0))) := by
    intro i
    rw [Finset.sum_eq_single (x i), Finset.sum_eq_single (y i)]
    · simp; ring
    · intro v _ hv; rw [if_neg (fun h : y i = v => hv h.symm)]; ring
    · intro hv; exact absurd (Finset.mem_image_of_mem y (Finset.mem_univ i)) hv
    · intro u _ hu
      refine Finset.sum_eq_zero fun v _ => ?_
      rw [if_neg (fun h : x i = u => hu h.symm)]; ring
    · intro hv; exact absurd (Finset.mem_image_of_mem x (Finset.mem_univ i)) hv
  rw [Finset.sum_congr rfl fun i _ => e1 i, Finset.sum_comm]
  refine Finset.sum_eq_zero fun u _ => ?_
  rw [Finset.sum_comm]
  refine Finset.sum_eq_zero fun v _ => ?_
  rw [← Finset.mul_sum, ind, mul_zero]

variable {n : Nat}

/-- The weight of a pair of rows: joint frequency minus product of the frequencies. -/
noncomputable def weight (n : Nat) (p : Fin n × Fin n) : ℝ := (if p.1 = p.2 then 1 else 0) / n - 1 / n ^ 2

theorem sum_weight (F : Fin n × Fin n → ℝ) : ∑ p, weight n p * F p = (∑ i, F (i, i)) / n - (∑ i, ∑ j, F (i, j)) / n ^ 2 := by
  rw [Fintype.sum_prod_type]
  simp only [weight, sub_mul, Finset.sum_sub_distrib, ite_div, zero_div, ite_mul, zero_mul, Finset.sum_ite_eq, Finset.mem_univ, if_true, Finset.sum_div]
  congr 1
  · exact Finset.sum_congr rfl fun i _ => by ring
  · refine Finset.sum_congr rfl fun i _ => Finset.sum_congr rfl fun j _ => by ring

theorem criterion_form {α β : Type} (k : α → α → ℝ) (l : β → β → ℝ) (hk : ∀ a b, k a b = k b a) (hl : ∀ a b, l a b = l b a) (x : Fin n → α) (y : Fin n → β) :
    Spec.criterion k l x y = ∑ p : Fin n × Fin n, ∑ q : Fin n × Fin n, weight n p * weight n q * (k (x p.1) (x q.1) * l (y p.2) (y q.2)) := by
  have e : ∀ p : Fin n × Fin n, ∑ q, weight n p * weight n q * (k (x p.1) (x q.1) * l (y p.2) (y q.2)) =
      weight n p * ((∑ a, k (x p.1) (x a) * l (y p.2) (y a)) / n - (∑ a, k (x p.1) (x a)) * (∑ b, l (y p.2) (y b)) / n ^ 2) := by
    intro p
    simp only [mul_assoc]
    rw [← Finset.mul_sum, sum_weight (fun q => k (x p.1) (x q.1) * l (y p.2) (y q.2)), Finset.sum_mul_sum]
  rw [Finset.sum_congr rfl fun p _ => e p, sum_weight (fun p => (∑ a, k (x p.1) (x a) * l (y p.2) (y a)) / n - (∑ a, k (x p.1) (x a)) * (∑ b, l (y p.2) (y b)) / n ^ 2)]
  dsimp only
  simp only [Finset.sum_sub_distrib, ← Finset.sum_div]
  have e1 : ∑ i, ∑ j, ∑ a, k (x i) (x a) * l (y j) (y a) = ∑ a, (∑ i, k (x a) (x i)) * ∑ j, l (y a) (y j) := by
    have : ∀ a, (∑ i, k (x a) (x i)) * ∑ j, l (y a) (y j) = ∑ i, ∑ j, k (x i) (x a) * l (y j) (y a) := by
      intro a
      rw [Finset.sum_mul_sum]
      exact Finset.sum_congr rfl fun i _ => Finset.sum_congr rfl fun j _ => by rw [hk, hl]
    simp only [this]
    rw [Finset.sum_comm (s := univ) (t := univ) (f := fun a i => ∑ j, k (x i) (x a) * l (y j) (y a))]
    refine Finset.sum_congr rfl fun i _ => ?_
    rw [Finset.sum_comm]
  have e2 : ∑ i, ∑ j, (∑ a, k (x i) (x a)) * (∑ b, l (y j) (y b)) = (∑ i, ∑ j, k (x i) (x j)) * ∑ i, ∑ j, l (y i) (y j) := by
    rw [Finset.sum_mul_sum]
  rw [e1, e2]
  unfold Spec.criterion
  ring

theorem criterion_zero_of_independent {α β : Type} {x : Fin n → α} {y : Fin n → β} (hn : 0 < n) (h : SampleIndependent x y) (k : α → α → ℝ) (l : β → β → ℝ) : Spec.criterion k l x y = 0 := by
  have hn' : (n : ℝ) ≠ 0 := by exact_mod_cast hn.ne'
  have e1 : ∀ j, ∑ i, k (x i) (x j) * l (y i) (y j) = (∑ i, k (x i) (x j)) * (∑ i, l (y i) (y j)) / n := by
    intro j
    rw [eq_div_iff hn', mul_comm]
    exact h (fun v => k v (x j)) (fun v => l v (y j))
  have e2 : ∑ i, ∑ j, k (x i) (x j) * l (y i) (y j) = (∑ i, ∑ j, k (x i) (x j)) * (∑ i, ∑ j, l (y i) (y j)) / n ^ 2 := by
    rw [Finset.sum_comm, Finset.sum_congr rfl fun j _ => e1 j, ← Finset.sum_div]
    have := h (fun v => ∑ i, k (x i) v) (fun v => ∑ i, l (y i) v)
    beta_reduce at this
    rw [Finset.sum_comm (f := fun i j => k (x i) (x j)), Finset.sum_comm (f := fun i j => l (y i) (y j)), ← this]
    field_simp
  have e3 : ∑ i, (∑ j, k (x i) (x j)) * (∑ j, l (y i) (y j)) = (∑ i, ∑ j, k (x i) (x j)) * (∑ i, ∑ j, l (y i) (y j)) / n := by
    rw [eq_div_iff hn', mul_comm]
    exact h (fun v => ∑ j, k v (x j)) (fun v => ∑ j, l v (y j))
  unfold Spec.criterion
  rw [e2, e3]
  field_simp
  ring

theorem gauss_prod {d : Nat} (w : ℝ) (a b : Fin d → ℝ) :
    Spec.gauss w a b = Real.exp (-(∑ k, a k ^ 2) / (2 * w ^ 2)) * Real.exp (-(∑ k, b k ^ 2) / (2 * w ^ 2)) * ∏ k, Real.exp (1 / w ^ 2 * (a k * b k)) := by
  unfold Spec.gauss
  rw [← Real.exp_sum, ← Real.exp_add, ← Real.exp_add]
  congr 1
  have : ∑ k, (a k - b k) ^ 2 = (∑ k, a k ^ 2) + (∑ k, b k ^ 2) - 2 * ∑ k, a k * b k := by
    rw [Finset.mul_sum, ← Finset.sum_add_distrib, ← Finset.sum_sub_distrib]
    exact Finset.sum_congr rfl fun k _ => by ring
  rw [this, ← Finset.mul_sum]
  by_cases hw : w = 0
  · subst hw; simp
  · field_simp
    ring

theorem independent_of_criterion_zero {d e : Nat} {X : Dat n d} {Y : Dat n e} (hn : 0 < n) {wx wy : ℝ} (hx : 0 < wx) (hy : 0 < wy)
    (h : Spec.criterion (Spec.gauss wx) (Spec.gauss wy) X Y = 0) : SampleIndependent X Y := by
  have hn' : (n : ℝ) ≠ 0 := by exact_mod_cast hn.ne'
  have sym : ∀ (d : Nat) (w : ℝ) (a b : Fin d → ℝ), Spec.gauss w a b = Spec.gauss w b a := by
    intro d w a b
    rw [gauss_prod, gauss_prod]
    simp only [mul_comm (a _) (b _)]
    ring
  rw [criterion_form _ _ (sym d wx) (sym e wy)] at h
  intro f g
  have h2 := functions_zero (ι := Fin n × Fin n) (fun p => X p.1) (fun p => Y p.2) (s := 1 / wx ^ 2) (t := 1 / wy ^ 2) (by positivity) (by positivity)
    (fun p => weight n p * Real.exp (-(∑ k, X p.1 k ^ 2) / (2 * wx ^ 2)) * Real.exp (-(∑ k, Y p.2 k ^ 2) / (2 * wy ^ 2))) (by
      rw [← h]
      refine Finset.sum_congr rfl fun p _ => Finset.sum_congr rfl fun q _ => ?_
      rw [gauss_prod, gauss_prod]
      ring) (fun v => f v / Real.exp (-(∑ k, v k ^ 2) / (2 * wx ^ 2))) (fun v => g v / Real.exp (-(∑ k, v k ^ 2) / (2 * wy ^ 2)))
  beta_reduce at h2
  have e : ∀ p : Fin n × Fin n, weight n p * Real.exp (-(∑ k, X p.1 k ^ 2) / (2 * wx ^ 2)) * Real.exp (-(∑ k, Y p.2 k ^ 2) / (2 * wy ^ 2)) *
      (f (X p.1) / Real.exp (-(∑ k, X p.1 k ^ 2) / (2 * wx ^ 2))) * (g (Y p.2) / Real.exp (-(∑ k, Y p.2 k ^ 2) / (2 * wy ^ 2))) = weight n p * (f (X p.1) * g (Y p.2)) := by
    intro p
    have h1 := (Real.exp_pos (-(∑ k, X p.1 k ^ 2) / (2 * wx ^ 2))).ne'
    have h2 := (Real.exp_pos (-(∑ k, Y p.2 k ^ 2) / (2 * wy ^ 2))).ne'
    generalize Real.exp (-(∑ k, X p.1 k ^ 2) / (2 * wx ^ 2)) = A at *
    generalize Real.exp (-(∑ k, Y p.2 k ^ 2) / (2 * wy ^ 2)) = B at *
    field_simp
  rw [Finset.sum_congr rfl fun p _ => e p, sum_weight (fun p => f (X p.1) * g (Y p.2)), sub_eq_zero] at h2
  dsimp only at h2
  rw [← Finset.sum_mul_sum] at h2
  field_simp at h2
  linarith

/-- The statistic of the test is zero exactly if the two samples (of numbers or of vectors) are exactly independent. -/
theorem C231_zero_iff {d e : Nat} (sf : ℝ → ℝ → ℝ → ℝ) {X : Dat n d} {Y : Dat n e} {s : ℝ} {p : Option ℝ} (h : test sf X Y = .ok (some s, p)) :
    s = 0 ↔ SampleIndependent X Y := by
  obtain ⟨_, wx, wy, hx, hy, _, _, rfl⟩ := C116_hsic_statistic sf X Y s p h
  have hn : 0 < n := by
    by_contra h0
    unfold test testWith at h
    rw [if_pos (by omega)] at h
    cases h
  have hn' : (n : ℝ) ≠ 0 := by exact_mod_cast hn.ne'
  constructor
  · intro h0
    rcases mul_eq_zero.1 h0 with h0 | h0
    · exact absurd h0 hn'
    · exact independent_of_criterion_zero hn hx hy h0
  · intro hi
    rw [criterion_zero_of_independent hn hi, mul_zero]

/-- Exactly independent samples get the largest p-value, 1 (if a p-value is reported), so that independence is not rejected at any level
below 1. -/
theorem C231_accepted {sf : ℝ → ℝ → ℝ → ℝ} (hsf : ∀ a b, 0 < a → 0 < b → sf 0 a b = 1) {d e : Nat} {X : Dat n d} {Y : Dat n e} {s p : ℝ}
    (h : test sf X Y = .ok (some s, some p)) (hi : SampleIndependent X Y) : p = 1 := by
  have h0 := (C231_zero_iff sf h).2 hi
  obtain ⟨_, _, a, b, _, _, _, _, ha, hb, rfl, _⟩ := C116_hsic_p_value sf X Y s p h
  rw [h0]
  exact hsf a b ha hb

/-- If independence does not hold exactly, the statistic is positive; with a survival function that decreases, the p-value is below 1. -/
theorem C231_dependent {sf : ℝ → ℝ → ℝ → ℝ} (hsf : ∀ x a b, 0 < x → 0 < a → 0 < b → sf x a b < 1) {d e : Nat} {X : Dat n d} {Y : Dat n e} {s p : ℝ}
    (h : test sf X Y = .ok (some s, some p)) (hi : ¬ SampleIndependent X Y) : 0 < s ∧ p < 1 := by
  have h0 := lt_of_le_of_ne (C116_hsic_statistic sf X Y s _ h).1 (fun e => hi ((C231_zero_iff sf h).1 e.symm))
  refine ⟨h0, ?_⟩
  obtain ⟨_, _, a, b, _, _, _, _, ha, hb, rfl, _⟩ := C116_hsic_p_value sf X Y s p h
  exact hsf s a b h0 ha hb

/-- The centred kernel is positive on the diagonal unless the sample is constant. -/
theorem centred_self_pos {d : Nat} (X : Dat n d) {w : ℝ} (hw : 0 < w) (i : Fin n) (hne : ∃ r, X r ≠ X i) : 0 < centred (rbf X w) i i := by
  classical
  have hn : (n : ℝ) ≠ 0 := by
    have : n ≠ 0 := by rintro rfl; exact i.elim0
    exact_mod_cast this
  let c : Fin n → ℝ := fun r => (if r = i then 1 else 0) - 1 / n
  let a : (Fin d → ℝ) → ℝ := fun v => Real.exp (-(∑ k, v k ^ 2) / (2 * w ^ 2))
  have ha : ∀ v, 0 < a v := fun v => Real.exp_pos _
  have sym : ∀ r s, rbf X w r s = rbf X w s r := by
    intro r s
    rw [rbf_gauss]
    show Spec.gauss w (X r) (X s) = Spec.gauss w (X s) (X r)
    rw [gauss_prod, gauss_prod, mul_comm (Real.exp _) (Real.exp _)]
    congr 1
    exact Finset.prod_congr rfl fun k _ => by rw [mul_comm (X r k)]
  have form : centred (rbf X w) i i = ∑ r, ∑ s, c r * c s * rbf X w r s := by
    have h1 : ∀ r, ∑ s, c r * c s * rbf X w r s = c r * (rbf X w r i - (∑ s, rbf X w r s) / n) := by
      intro r
      rw [Finset.sum_congr rfl fun s _ => mul_assoc (c r) (c s) (rbf X w r s), ← Finset.mul_sum]
      congr 1
      simp only [c, sub_mul, Finset.sum_sub_distrib, ite_mul, one_mul, zero_mul, Finset.sum_ite_eq', Finset.mem_univ, if_true, ← Finset.mul_sum]
      ring
    rw [Finset.sum_congr rfl fun r _ => h1 r]
    simp only [c, sub_mul, Finset.sum_sub_distrib, ite_mul, one_mul, zero_mul, Finset.sum_ite_eq', Finset.mem_univ, if_true, ← Finset.mul_sum,
      ← Finset.sum_div]
    unfold centred
    field_simp
    ring
  have form2 : ∑ r, ∑ s, c r * c s * rbf X w r s = ∑ r, ∑ s, (c r * a (X r)) * (c s * a (X s)) * ∏ k, Real.exp (1 / w ^ 2 * (X r k * X s k)) := by
    refine Finset.sum_congr rfl fun r _ => Finset.sum_congr rfl fun s _ => ?_
    rw [rbf_gauss]
    show c r * c s * Spec.gauss w (X r) (X s) = _
    rw [gauss_prod]
    ring
  rw [form, form2]
  refine lt_of_le_of_ne (product_form_nonneg X (fun _ => by positivity) univ _) fun h => ?_
  have key := functions_zero X (fun _ : Fin n => (Fin.elim0 : Fin 0 → ℝ)) (s := 1 / w ^ 2) (t := 1) (by positivity) one_pos (fun r => c r * a (X r))
    (by simpa using h.symm) (fun v => if v = X i then 1 / a v else 0) (fun _ => 1)
  have e1 : ∀ r, c r * a (X r) * (if X r = X i then 1 / a (X r) else 0) * 1 = (if r = i then 1 else 0) - (if X r = X i then 1 else 0) / n := by
    intro r
    have := (ha (X r)).ne'
    by_cases h1 : X r = X i
    · rw [if_pos h1, if_pos h1]
      simp only [c]
      field_simp
    · rw [if_neg h1, if_neg h1, if_neg (by rintro rfl; exact h1 rfl)]
      ring
  rw [Finset.sum_congr rfl fun r _ => e1 r, Finset.sum_sub_distrib, ← Finset.sum_div, Finset.sum_ite_eq', if_pos (Finset.mem_univ i), sub_eq_zero,
    eq_div_iff hn, one_mul] at key
  obtain ⟨r, hr⟩ := hne
  have : ∑ r, (if X r = X i then (1 : ℝ) else 0) < ∑ _r : Fin n, (1 : ℝ) :=
    Finset.sum_lt_sum (fun s _ => by split <;> norm_num) ⟨r, Finset.mem_univ r, by rw [if_neg hr]; norm_num⟩
  rw [← key] at this
  simp at this

/-- A p-value is reported if both samples vary among the first 100 rows and some observation (of both) occurs twice. -/
theorem C231_reported {d e : Nat} (hn : 6 ≤ n) (sf : ℝ → ℝ → ℝ → ℝ) {X : Dat n d} {Y : Dat n e} (hx : ∃ i j : Fin n, i.val < 100 ∧ j.val < 100 ∧ X i ≠ X j)
    (hy : ∃ i j : Fin n, i.val < 100 ∧ j.val < 100 ∧ Y i ≠ Y j) {i j : Fin n} (hij : i ≠ j) (hX : X i = X j) (hY : Y i = Y j) :
    ∃ s p, test sf X Y = .ok (some s, some p) := by
  have kx : kernelWidth X ≠ none := by
    rw [Ne, kernelWidth_eq_none]; intro h
    obtain ⟨a, b, ha, hb, hne⟩ := hx
    exact hne (h a b ha hb)
  have ky : kernelWidth Y ≠ none := by
    rw [Ne, kernelWidth_eq_none]; intro h
    obtain ⟨a, b, ha, hb, hne⟩ := hy
    exact hne (h a b ha hb)
  obtain ⟨wx, kx⟩ := Option.ne_none_iff_exists'.1 kx
  obtain ⟨wy, ky⟩ := Option.ne_none_iff_exists'.1 ky
  have row : ∀ {d : Nat} {X : Dat n d} {w : ℝ}, X i = X j → centred (rbf X w) i j = centred (rbf X w) i i := by
    intro d X w h
    have h1 : ∀ a, rbf X w a j = rbf X w a i := by intro a; rw [rbf_gauss]; show Spec.gauss w (X a) (X j) = Spec.gauss w (X a) (X i); rw [h]
    unfold centred
    simp only [h1]
  have other : ∀ {d : Nat} {X : Dat n d}, (∃ i j : Fin n, i.val < 100 ∧ j.val < 100 ∧ X i ≠ X j) → ∃ r, X r ≠ X i := by
    rintro d X ⟨a, b, _, _, hne⟩
    by_cases h : X a = X i
    · exact ⟨b, fun hb => hne (h.trans hb.symm)⟩
    · exact ⟨a, h⟩
  have cx := centred_self_pos X (kernelWidth_pos kx) i (other hx)
  have cy := centred_self_pos Y (kernelWidth_pos ky) i (other hy)
  have hn' : (6 : ℝ) ≤ n := by exact_mod_cast hn
  have hm : nullMean (rbf X wx) (rbf Y wy) ≠ 0 := by
    have h1 := offMean_rbf X (kernelWidth_pos kx) (by omega) (exists_ne_of_width kx)
    have h2 := offMean_rbf Y (kernelWidth_pos ky) (by omega) (exists_ne_of_width ky)
    have : nullMean (rbf X wx) (rbf Y wy) = 1 / n * ((1 - offMean (rbf X wx)) * (1 - offMean (rbf Y wy))) := by
      unfold nullMean; ring
    rw [this]
    exact (mul_pos (by positivity) (mul_pos (by linarith) (by linarith))).ne'
  have hv : nullVar (centred (rbf X wx)) (centred (rbf Y wy)) ≠ 0 := by
    unfold nullVar
    have : 0 < (∑ i, ∑ j, (1 / 6 * centred (rbf X wx) i j * centred (rbf Y wy) i j) ^ 2) -
        ∑ i, (1 / 6 * centred (rbf X wx) i i * centred (rbf Y wy) i i) ^ 2 := by
      rw [← Finset.sum_sub_distrib]
      have nn : ∀ i : Fin n, 0 ≤ (∑ j, (1 / 6 * centred (rbf X wx) i j * centred (rbf Y wy) i j) ^ 2) -
          (1 / 6 * centred (rbf X wx) i i * centred (rbf Y wy) i i) ^ 2 := fun i =>
        sub_nonneg.2 (Finset.single_le_sum (f := fun j => (1 / 6 * centred (rbf X wx) i j * centred (rbf Y wy) i j) ^ 2)
          (fun j _ => sq_nonneg _) (Finset.mem_univ i))
      refine lt_of_lt_of_le ?_ (Finset.single_le_sum (f := fun i => (∑ j, (1 / 6 * centred (rbf X wx) i j * centred (rbf Y wy) i j) ^ 2) -
          (1 / 6 * centred (rbf X wx) i i * centred (rbf Y wy) i i) ^ 2) (fun i _ => nn i) (Finset.mem_univ i))
      have two := Finset.sum_le_univ_sum_of_nonneg (s := {i, j})
        (f := fun j => (1 / 6 * centred (rbf X wx) i j * centred (rbf Y wy) i j) ^ 2) (fun j => sq_nonneg _)
      rw [Finset.sum_pair hij, row hX, row hY] at two
      have : 0 < (1 / 6 * centred (rbf X wx) i i * centred (rbf Y wy) i i) ^ 2 := by positivity
      linarith
    have f4 : (0 : ℝ) < n - 4 := by linarith
    have f5 : (0 : ℝ) < n - 5 := by linarith
    have f1 : (0 : ℝ) < n - 1 := by linarith
    have f2 : (0 : ℝ) < n - 2 := by linarith
    have f3 : (0 : ℝ) < n - 3 := by linarith
    positivity
  unfold test testWith
  rw [if_neg (by omega), kx, ky]
  dsimp only
  rw [if_neg (by rintro (h | h); exact hv h; exact hm h)]
  exact ⟨_, _, rfl⟩

/-! ### A case in which the hypotheses hold: two throws of a coin, each pair of results twice -/

/-- The first coin: 0 four times, then 1 four times. -/
noncomputable def coinA : Dat 8 1 := fun i _ => if i.val < 4 then 0 else 1

/-- The second coin. -/
noncomputable def coinB : Dat 8 1 := fun i _ => if i.val % 4 < 2 then 0 else 1

theorem coins_independent : SampleIndependent coinA coinB := by
  intro f g
  unfold coinA coinB
  simp [Fin.sum_univ_eight]
  ring

/-- A p-value is reported for them. -/
theorem coins_reported (sf : ℝ → ℝ → ℝ → ℝ) : ∃ s p, test sf coinA coinB = .ok (some s, some p) := by
  refine C231_reported (by norm_num) sf ⟨0, 4, by decide, by decide, fun h => ?_⟩ ⟨0, 2, by decide, by decide, fun h => ?_⟩
    (i := 0) (j := 1) (by decide) (by funext k; simp [coinA]) (by funext k; simp [coinB])
  · have := congrFun h 0
    simp [coinA] at this
  · have := congrFun h 0
    simp [coinB] at this

/-- Two throws of a coin: the statistic is 0 and the p-value is 1. -/
example {sf : ℝ → ℝ → ℝ → ℝ} (hsf : ∀ a b, 0 < a → 0 < b → sf 0 a b = 1) : test sf coinA coinB = .ok (some 0, some 1) := by
  obtain ⟨s, p, h⟩ := coins_reported sf
  rw [h, (C231_zero_iff sf h).2 coins_independent, C231_accepted hsf h coins_independent]

end Verif.Hsic
