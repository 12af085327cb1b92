import Mathlib.Analysis.SpecialFunctions.Log.Deriv
import Mathlib.Analysis.SpecialFunctions.ExpDeriv
import Mathlib.Analysis.SpecialFunctions.Trigonometric.DerivHyp
import Mathlib.Analysis.Calculus.Deriv.Pow
import Mathlib.Analysis.Calculus.Deriv.Add
import Mathlib.Analysis.Calculus.Deriv.Mul
import Mathlib.LinearAlgebra.Matrix.Trace
import Mathlib.Tactic.FieldSimp
import Verif.Model.LimLoss
import Verif.Spec.Gradient
import Verif.Proofs.Lim

/-! Lemmas about the objective functions and their gradients. -/
set_option autoImplicit false
set_option linter.unusedSectionVars false
namespace Verif.Lim

theorem isGrad_congr {d : Nat} {F : Mat ℝ → ℝ} {G G' W : Mat ℝ} (h : IsGrad d F G W)
    (hG : ∀ i j, i < d → j < d → G i j = G' i j) : IsGrad d F G' W := by
  intro E
  have := h E
  refine this.congr_deriv ?_
  refine Finset.sum_congr rfl (fun i hi => Finset.sum_congr rfl (fun j hj => ?_))
  rw [hG i j (Finset.mem_range.1 hi) (Finset.mem_range.1 hj)]

/-- Gradients are unique. -/
theorem isGrad_unique {d : Nat} {F : Mat ℝ → ℝ} {G G' W : Mat ℝ} (h : IsGrad d F G W) (h' : IsGrad d F G' W)
    (a b : Nat) (ha : a < d) (hb : b < d) : G a b = G' a b := by
  have e := (h (fun i j => if i = a ∧ j = b then 1 else 0)).unique (h' (fun i j => if i = a ∧ j = b then 1 else 0))
  have key : ∀ H : Mat ℝ, (∑ i ∈ Finset.range d, ∑ j ∈ Finset.range d, H i j * (if i = a ∧ j = b then 1 else 0)) =
      H a b := by
    intro H
    rw [Finset.sum_eq_single a, Finset.sum_eq_single b]
    · simp
    · intro j _ hj; simp [hj]
    · intro h; exact absurd (Finset.mem_range.2 hb) h
    · intro i _ hi; exact Finset.sum_eq_zero (fun j _ => by simp [hi])
    · intro h; exact absurd (Finset.mem_range.2 ha) h
  rw [key, key] at e
  exact e

theorem pred_deriv (d : Nat) (X W E : Mat ℝ) (s j : Nat) :
    HasDerivAt (fun t : ℝ => pred d X (fun i j => W i j + t * E i j) s j) (pred d X E s j) 0 := by
  unfold pred
  refine HasDerivAt.fun_sum (fun k _ => ?_)
  have h : HasDerivAt (fun t : ℝ => t * E k j) (E k j) 0 := by
    simpa using (hasDerivAt_id (0 : ℝ)).mul_const (E k j)
  exact (h.const_add (W k j)).const_mul (X s k)

theorem pred_zero (d : Nat) (X W E : Mat ℝ) (s j : Nat) :
    pred d X (fun i j => W i j + 0 * E i j) s j = pred d X W s j := by simp [pred]

theorem xT_total (n d : Nat) (X A E : Mat ℝ) :
    ∑ i ∈ Finset.range d, ∑ j ∈ Finset.range d, xT n X A i j * E i j =
      total n d (fun s j => A s j * pred d X E s j) := by
  unfold xT total pred
  have h1 : ∀ i j, (∑ s ∈ Finset.range n, X s i * A s j) * E i j =
      ∑ s ∈ Finset.range n, A s j * (X s i * E i j) := by
    intro i j
    rw [Finset.sum_mul]
    exact Finset.sum_congr rfl (fun s _ => by ring)
  simp only [h1, Finset.mul_sum]
  rw [Finset.sum_comm]
  rw [show (∑ s ∈ Finset.range n, ∑ j ∈ Finset.range d, ∑ i ∈ Finset.range d, A s j * (X s i * E i j)) =
    ∑ j ∈ Finset.range d, ∑ s ∈ Finset.range n, ∑ i ∈ Finset.range d, A s j * (X s i * E i j) from
    Finset.sum_comm]
  refine Finset.sum_congr rfl (fun j _ => ?_)
  rw [Finset.sum_comm]

/-- A loss that is a sum of differentiable functions of the predictions. -/
theorem isGrad_total (n d : Nat) (X W : Mat ℝ) (φ : Nat → Nat → ℝ → ℝ) (φ' : Mat ℝ)
    (h : ∀ s j, HasDerivAt (φ s j) (φ' s j) (pred d X W s j)) :
    IsGrad d (fun V => total n d (fun s j => φ s j (pred d X V s j))) (xT n X φ') W := by
  intro E
  rw [xT_total]
  unfold total
  refine HasDerivAt.fun_sum (fun s _ => HasDerivAt.fun_sum (fun j _ => ?_))
  have h1 := h s j
  rw [← pred_zero d X W E s j] at h1
  exact HasDerivAt.comp (0 : ℝ) h1 (pred_deriv d X W E s j)

theorem isGrad_const_mul {d : Nat} {F : Mat ℝ → ℝ} {G W : Mat ℝ} (c : ℝ) (h : IsGrad d F G W) :
    IsGrad d (fun V => c * F V) (fun i j => c * G i j) W := by
  intro E
  refine ((h E).const_mul c).congr_deriv ?_
  rw [Finset.mul_sum]
  refine Finset.sum_congr rfl (fun i _ => ?_)
  rw [Finset.mul_sum]
  exact Finset.sum_congr rfl (fun j _ => by ring)

theorem isGrad_add {d : Nat} {F F' : Mat ℝ → ℝ} {G G' W : Mat ℝ} (h : IsGrad d F G W) (h' : IsGrad d F' G' W) :
    IsGrad d (fun V => F V + F' V) (fun i j => G i j + G' i j) W := by
  intro E
  refine ((h E).add (h' E)).congr_deriv ?_
  rw [← Finset.sum_add_distrib]
  refine Finset.sum_congr rfl (fun i _ => ?_)
  rw [← Finset.sum_add_distrib]
  exact Finset.sum_congr rfl (fun j _ => by ring)

theorem isGrad_const {d : Nat} (c : ℝ) (W : Mat ℝ) : IsGrad d (fun _ => c) (fun _ _ => 0) W := by
  intro E
  refine (hasDerivAt_const (0 : ℝ) c).congr_deriv ?_
  simp

theorem logaddexp0_deriv (x : ℝ) : HasDerivAt logaddexp0 (sigmoid x) x := by
  unfold logaddexp0 sigmoid
  have h : HasDerivAt (fun x => Real.exp 0 + Real.exp x) (Real.exp x) x := (Real.hasDerivAt_exp x).const_add _
  have hp : 0 < Real.exp 0 + Real.exp x := by positivity
  refine (h.log hp.ne').congr_deriv ?_
  rw [Real.exp_neg, Real.exp_zero]
  have := Real.exp_pos x
  field_simp
  ring

theorem logcosh_deriv (a x : ℝ) : HasDerivAt (fun x => Real.log (Real.cosh (a - x))) (- Real.tanh (a - x)) x := by
  have h : HasDerivAt (fun x : ℝ => a - x) (-1) x := by simpa using (hasDerivAt_id x).const_sub a
  have h2 := (Real.hasDerivAt_cosh (a - x)).comp x h
  have h3 := h2.log (Real.cosh_pos (a - x)).ne'
  refine h3.congr_deriv ?_
  rw [Real.tanh_eq_sinh_div_cosh]
  simp only [Function.comp]
  ring

/-! ### The constraint -/

/-- The matrix on `Fin d`. -/
def toM {K : Type} (d : Nat) (A : Mat K) : Matrix (Fin d) (Fin d) K := fun i j => A i j

theorem toM_mmul {K : Type} [Field K] (d : Nat) (A B : Mat K) : toM d (mmul d A B) = toM d A * toM d B := by
  ext i j
  simp [toM, mmul, Matrix.mul_apply, Finset.sum_range]

theorem toM_eye {K : Type} [Field K] (d : Nat) : toM d (eye : Mat K) = 1 := by
  ext i j
  simp [toM, eye, Matrix.one_apply, Fin.ext_iff]

theorem toM_mpow {K : Type} [Field K] (d : Nat) (A : Mat K) (n : Nat) : toM d (mpow d A n) = toM d A ^ n := by
  induction n with
  | zero => simp [mpow, toM_eye]
  | succ n ih => rw [mpow, toM_mmul, ih, pow_succ]

theorem mOf_deriv (d : Nat) (W E : Mat ℝ) (i j : Nat) :
    HasDerivAt (fun t : ℝ => mOf d (fun i j => W i j + t * E i j) i j) (2 * W i j * E i j / d) 0 := by
  unfold mOf
  have h : HasDerivAt (fun t : ℝ => W i j + t * E i j) (E i j) 0 := by
    have : HasDerivAt (fun t : ℝ => t * E i j) (E i j) 0 := by
      simpa using (hasDerivAt_id (0 : ℝ)).mul_const (E i j)
    exact this.const_add _
  have h2 := ((h.mul h).div_const (d : ℝ)).const_add (eye i j : ℝ)
  refine h2.congr_deriv ?_
  simp
  ring

/-- Derivative of the matrix power along a direction. -/
noncomputable def dPow (d : Nat) (M D : Mat ℝ) : Nat → Mat ℝ
  | 0 => fun _ _ => 0
  | n + 1 => fun i j => mmul d (dPow d M D n) M i j + mmul d (mpow d M n) D i j

theorem mpow_deriv (d : Nat) (W E : Mat ℝ) (n : Nat) : ∀ i j,
    HasDerivAt (fun t : ℝ => mpow d (mOf d (fun i j => W i j + t * E i j)) n i j)
      (dPow d (mOf d W) (fun i j => 2 * W i j * E i j / d) n i j) 0 := by
  induction n with
  | zero => intro i j; exact hasDerivAt_const _ _
  | succ n ih =>
    intro i j
    show HasDerivAt (fun t : ℝ => ∑ k ∈ Finset.range d, _) (mmul d _ _ i j + mmul d _ _ i j) 0
    unfold mmul
    rw [← Finset.sum_add_distrib]
    refine HasDerivAt.fun_sum (fun k _ => ?_)
    refine ((ih i k).mul (mOf_deriv d W E k j)).congr_deriv ?_
    simp

theorem trace_dPow (d : Nat) (M D : Mat ℝ) (n : Nat) : ∀ k,
    Matrix.trace (toM d (dPow d M D n) * toM d M ^ k) = n * Matrix.trace (toM d M ^ (n + k - 1) * toM d D) := by
  induction n with
  | zero =>
    intro k
    have : toM d (dPow d M D 0) = 0 := by ext i j; rfl
    rw [this]; simp
  | succ n ih =>
    intro k
    have e : toM d (dPow d M D (n + 1)) = toM d (dPow d M D n) * toM d M + toM d M ^ n * toM d D := by
      rw [← toM_mmul, ← toM_mpow, ← toM_mmul]; rfl
    rw [e, add_mul, Matrix.trace_add, mul_assoc, ← pow_succ', ih (k + 1)]
    have e2 : Matrix.trace (toM d M ^ n * toM d D * toM d M ^ k) = Matrix.trace (toM d M ^ (n + k) * toM d D) := by
      rw [Matrix.trace_mul_comm, ← mul_assoc, ← pow_add, Nat.add_comm k n]
    rw [e2, show n + (k + 1) - 1 = n + k by omega, show n + 1 + k - 1 = n + k by omega]
    push_cast
    ring

theorem hVal_isGrad (d : Nat) (hd : 0 < d) (W : Mat ℝ) : IsGrad d (hVal d) (hGrad d W) W := by
  intro E
  have h1 : HasDerivAt (fun t : ℝ => ∑ i ∈ Finset.range d,
      (mpow d (mOf d (fun i j => W i j + t * E i j)) d i i - 1))
      (∑ i ∈ Finset.range d, dPow d (mOf d W) (fun i j => 2 * W i j * E i j / d) d i i) 0 :=
    HasDerivAt.fun_sum (fun i _ => (mpow_deriv d W E d i i).sub_const 1)
  have h2 : (fun t : ℝ => hVal d (fun i j => W i j + t * E i j)) = fun t : ℝ => ∑ i ∈ Finset.range d,
      (mpow d (mOf d (fun i j => W i j + t * E i j)) d i i - 1) := by
    funext t; exact hVal_eq d _ hd
  rw [h2]
  refine h1.congr_deriv ?_
  symm
  have h3 := trace_dPow d (mOf d W) (fun i j => 2 * W i j * E i j / d) d 0
  rw [pow_zero, mul_one, Nat.add_zero] at h3
  have h4 : Matrix.trace (toM d (dPow d (mOf d W) (fun i j => 2 * W i j * E i j / d) d)) =
      ∑ i ∈ Finset.range d, dPow d (mOf d W) (fun i j => 2 * W i j * E i j / d) d i i := by
    simp [Matrix.trace, toM, Finset.sum_range]
  rw [← h4, h3, ← toM_mpow, ← toM_mmul]
  have h5 : Matrix.trace (toM d (mmul d (mpow d (mOf d W) (d - 1)) (fun i j => 2 * W i j * E i j / d))) =
      ∑ i ∈ Finset.range d, ∑ k ∈ Finset.range d, mpow d (mOf d W) (d - 1) i k * (2 * W k i * E k i / d) := by
    simp [Matrix.trace, toM, mmul, Finset.sum_range]
  rw [h5, Finset.sum_comm, Finset.mul_sum]
  have hdR : (d : ℝ) ≠ 0 := by exact_mod_cast hd.ne'
  refine Finset.sum_congr rfl (fun i _ => ?_)
  rw [Finset.mul_sum]
  refine Finset.sum_congr rfl (fun j _ => ?_)
  unfold hGrad
  field_simp

/-- The whole objective. -/
theorem objective_isGrad (d : Nat) (hd : 0 < d) (l : LossG) (rho alpha lambda1 : ℝ) (w : Dbl ℝ)
    (hl : IsGrad d l.loss (l.grad (adj w)) (adj w)) :
    IsGrad2 d (objective d l rho alpha lambda1) (objectiveGrad d l rho alpha lambda1 w) w := by
  intro v
  have hadj : ∀ t : ℝ, adj ((fun i j => w.1 i j + t * v.1 i j, fun i j => w.2 i j + t * v.2 i j) : Dbl ℝ) =
      fun i j => adj w i j + t * (v.1 i j - v.2 i j) := by
    intro t; funext i j; simp [adj]; ring
  have h0 : (fun i j => adj w i j + 0 * (v.1 i j - v.2 i j)) = adj w := by funext i j; simp
  have e1 := hl (fun i j => v.1 i j - v.2 i j)
  have e2 := hVal_isGrad d hd (adj w) (fun i j => v.1 i j - v.2 i j)
  have e3 : ∀ u x : Mat ℝ, HasDerivAt (fun t : ℝ => ∑ i ∈ Finset.range d, ∑ j ∈ Finset.range d, (u i j + t * x i j))
      (∑ i ∈ Finset.range d, ∑ j ∈ Finset.range d, x i j) 0 := by
    intro u x
    refine HasDerivAt.fun_sum (fun i _ => HasDerivAt.fun_sum (fun j _ => ?_))
    have : HasDerivAt (fun t : ℝ => t * x i j) (x i j) 0 := by
      simpa using (hasDerivAt_id (0 : ℝ)).mul_const (x i j)
    exact this.const_add _
  have e4 := ((e1.add ((e2.const_mul (1 / 2 * rho)).mul e2)).add (e2.const_mul alpha)).add
    (((e3 w.1 v.1).add (e3 w.2 v.2)).const_mul lambda1)
  have hf : (fun t : ℝ => objective d l rho alpha lambda1
      (fun i j => w.1 i j + t * v.1 i j, fun i j => w.2 i j + t * v.2 i j)) = fun t : ℝ =>
      l.loss (fun i j => adj w i j + t * (v.1 i j - v.2 i j)) +
        1 / 2 * rho * hVal d (fun i j => adj w i j + t * (v.1 i j - v.2 i j)) *
          hVal d (fun i j => adj w i j + t * (v.1 i j - v.2 i j)) +
        alpha * hVal d (fun i j => adj w i j + t * (v.1 i j - v.2 i j)) +
        lambda1 * ((∑ i ∈ Finset.range d, ∑ j ∈ Finset.range d, (w.1 i j + t * v.1 i j)) +
          ∑ i ∈ Finset.range d, ∑ j ∈ Finset.range d, (w.2 i j + t * v.2 i j)) := by
    funext t
    unfold objective
    rw [hadj t]
  rw [hf]
  refine HasDerivAt.congr_deriv e4 ?_
  simp only [h0, objectiveGrad]
  generalize hVal d (adj w) = h
  have s1 : ∀ (G x : Mat ℝ) (c : ℝ), ∑ i ∈ Finset.range d, ∑ j ∈ Finset.range d, (G i j + c) * x i j =
      (∑ i ∈ Finset.range d, ∑ j ∈ Finset.range d, G i j * x i j) +
        c * ∑ i ∈ Finset.range d, ∑ j ∈ Finset.range d, x i j := by
    intro G x c
    rw [Finset.mul_sum, ← Finset.sum_add_distrib]
    refine Finset.sum_congr rfl (fun i _ => ?_)
    rw [Finset.mul_sum, ← Finset.sum_add_distrib]
    exact Finset.sum_congr rfl (fun j _ => by ring)
  have s2 : ∀ (G H x y : Mat ℝ) (c : ℝ),
      (∑ i ∈ Finset.range d, ∑ j ∈ Finset.range d, (G i j + c * H i j) * x i j) +
        (∑ i ∈ Finset.range d, ∑ j ∈ Finset.range d, -(G i j + c * H i j) * y i j) =
      (∑ i ∈ Finset.range d, ∑ j ∈ Finset.range d, G i j * (x i j - y i j)) +
        c * ∑ i ∈ Finset.range d, ∑ j ∈ Finset.range d, H i j * (x i j - y i j) := by
    intro G H x y c
    rw [Finset.mul_sum, ← Finset.sum_add_distrib, ← Finset.sum_add_distrib]
    refine Finset.sum_congr rfl (fun i _ => ?_)
    rw [Finset.mul_sum, ← Finset.sum_add_distrib, ← Finset.sum_add_distrib]
    exact Finset.sum_congr rfl (fun j _ => by ring)
  rw [s1, s1]
  have := s2 (l.grad (adj w)) (hGrad d (adj w)) v.1 v.2 (rho * h + alpha)
  linear_combination -this

end Verif.Lim
