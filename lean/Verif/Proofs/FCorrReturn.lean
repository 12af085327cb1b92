import Verif.Proofs.FCorr
import Verif.Spec.Pairwise
import Mathlib.Analysis.Complex.ExponentialBounds
import Mathlib.Data.Fintype.Lattice

set_option autoImplicit false
set_option linter.unusedSectionVars false
namespace Verif.FCorr

open Matrix

/-! ### Exact routines exist -/

theorem eigh_exists {m : Nat} (W : Matrix (Fin m) (Fin m) ℝ) (hW : Wᵀ = W) : ∃ DA : (Fin m → ℝ) × Matrix (Fin m) (Fin m) ℝ,
    IsEigenDecomposition W DA.1 DA.2 := by
  have hH : W.IsHermitian := by
    unfold Matrix.IsHermitian
    rw [conjTranspose_eq_transpose_of_trivial, hW]
  refine ⟨(hH.eigenvalues, (hH.eigenvectorUnitary : Matrix (Fin m) (Fin m) ℝ)), ?_, ?_⟩
  · have h := Unitary.coe_star_mul_self hH.eigenvectorUnitary
    rw [star_eq_conjTranspose, conjTranspose_eq_transpose_of_trivial] at h
    exact h
  · ext i j
    rw [mul_diagonal]
    have h := congrFun (hH.mulVec_eigenvectorBasis j) i
    rw [Pi.smul_apply, smul_eq_mul] at h
    rw [mul_comm]
    exact h

theorem smallest_exists {m : Nat} (hm : m ≠ 0) (W : Matrix (Fin m) (Fin m) ℝ) (hW : Wᵀ = W) : ∃ w, IsSmallestEigenvalue W w := by
  obtain ⟨⟨D, A⟩, h1, h2⟩ := eigh_exists W hW
  have : Nonempty (Fin m) := ⟨⟨0, Nat.pos_of_ne_zero hm⟩⟩
  obtain ⟨k, hk⟩ := Finite.exists_min (fun k => |D k|)
  have h3 : A * Aᵀ = 1 := mul_eq_one_comm.1 h1
  have h4 : Aᵀ * W = diagonal D * Aᵀ := by
    have := congrArg Matrix.transpose h2
    rw [transpose_mul, transpose_mul, hW, diagonal_transpose] at this
    exact this
  refine ⟨D k, ⟨A *ᵥ Pi.single k 1, ?_, ?_⟩, ?_⟩
  · intro h
    have := congrArg (Aᵀ *ᵥ ·) h
    simp only [mulVec_mulVec, h1, one_mulVec, mulVec_zero] at this
    have := congrFun this k
    simp at this
  · rw [mulVec_mulVec, h2, ← mulVec_mulVec, diagonal_mulVec_single, mul_one, ← mulVec_smul]
    congr 1
    rw [← Pi.single_smul, smul_eq_mul, mul_one]
  · intro μ v hv he
    have hy : Aᵀ *ᵥ v ≠ 0 := by
      intro h
      have := congrArg (A *ᵥ ·) h
      simp only [mulVec_mulVec, h3, one_mulVec, mulVec_zero] at this
      exact hv this
    obtain ⟨l, hl⟩ := Function.ne_iff.1 hy
    have h5 : diagonal D *ᵥ (Aᵀ *ᵥ v) = μ • (Aᵀ *ᵥ v) := by
      rw [mulVec_mulVec, ← h4, ← mulVec_mulVec, he, mulVec_smul]
    have h6 := congrFun h5 l
    rw [mulVec_diagonal, Pi.smul_apply, smul_eq_mul] at h6
    have : D l = μ := mul_right_cancel₀ hl h6
    rw [← this]
    exact hk l

theorem exact_exists : ∃ R : Routines, Exact R := by
  classical
  refine ⟨⟨fun m W => if h : Wᵀ = W then Classical.choose (eigh_exists W h) else (0, 0), fun _ _ l => l,
    fun m W => if h : Wᵀ = W ∧ m ≠ 0 then Classical.choose (smallest_exists h.2 W h.1) else 0⟩, ?_, ?_, ?_⟩
  · intro m W h
    simp only [h, dite_true]
    exact Classical.choose_spec (eigh_exists W h)
  · intro m D l
    exact List.Perm.refl l
  · intro m W h hm
    have h' : Wᵀ = W ∧ m ≠ 0 := ⟨h, hm⟩
    simp only [dif_pos h']
    exact Classical.choose_spec (smallest_exists hm W h)

/-! ### Standardisation -/

theorem standardize_eq {n : Nat} {x z : Fin n → ℝ} (h : standardize x = some z) : z = zscore x := by
  unfold standardize at h
  simp only at h
  split_ifs at h
  exact (Option.some.inj h).symm

theorem standardize_some {n : Nat} {x : Fin n → ℝ} (h : ∃ r s, x r ≠ x s) : ∃ z, standardize x = some z ∧ ∑ r, z r = 0 ∧ ∑ r, z r ^ 2 = n := by
  obtain ⟨r0, s0, hne⟩ := h
  have hn : n ≠ 0 := by rintro rfl; exact r0.elim0
  have hn' : (0 : ℝ) < n := Nat.cast_pos.2 (Nat.pos_of_ne_zero hn)
  set μ := (∑ r, x r) / (n : ℝ) with hμ
  have hvar : 0 < ∑ r, (x r - μ) ^ 2 := by
    rcases (Finset.sum_nonneg fun r _ => sq_nonneg (x r - μ) : 0 ≤ ∑ r, (x r - μ) ^ 2).lt_or_eq with h | h
    · exact h
    · exfalso
      have h2 := (Finset.sum_eq_zero_iff_of_nonneg fun r _ => sq_nonneg (x r - μ)).1 h.symm
      have a := pow_eq_zero_iff (two_ne_zero) |>.1 (h2 r0 (Finset.mem_univ _))
      have b := pow_eq_zero_iff (two_ne_zero) |>.1 (h2 s0 (Finset.mem_univ _))
      exact hne (by linarith)
  have hsd : √((∑ r, (x r - μ) ^ 2) / n) ≠ 0 := (Real.sqrt_pos.2 (by positivity)).ne'
  refine ⟨fun r => (x r - μ) / √((∑ r, (x r - μ) ^ 2) / n), ?_, ?_, ?_⟩
  · unfold standardize
    simp only
    rw [if_neg hsd]
  · rw [← Finset.sum_div, Finset.sum_sub_distrib, Finset.sum_const, Finset.card_univ, Fintype.card_fin, nsmul_eq_mul, hμ,
      mul_div_cancel₀ _ hn'.ne', sub_self, zero_div]
  · simp only [div_pow]
    rw [← Finset.sum_div, Real.sq_sqrt (by positivity)]
    field_simp

/-- A standardised sample has two values at distance at least `√2`. -/
theorem far_pair {n : Nat} (hn : n ≠ 0) {z : Fin n → ℝ} (h0 : ∑ r, z r = 0) (h1 : ∑ r, z r ^ 2 = n) : ∃ r s, 2 ≤ (z r - z s) ^ 2 := by
  by_contra hcon
  push Not at hcon
  have hn' : (0 : ℝ) < n := Nat.cast_pos.2 (Nat.pos_of_ne_zero hn)
  have : Nonempty (Fin n) := ⟨⟨0, Nat.pos_of_ne_zero hn⟩⟩
  have h : ∑ r : Fin n, ∑ s : Fin n, (z r - z s) ^ 2 < ∑ r : Fin n, ∑ s : Fin n, 2 :=
    Finset.sum_lt_sum_of_nonempty Finset.univ_nonempty fun r _ =>
      Finset.sum_lt_sum_of_nonempty Finset.univ_nonempty fun s _ => hcon r s
  have e : ∑ r : Fin n, ∑ s : Fin n, (z r - z s) ^ 2 = 2 * n * n := by
    have : ∀ r s, (z r - z s) ^ 2 = z r ^ 2 - 2 * z r * z s + z s ^ 2 := fun r s => by ring
    simp only [this, Finset.sum_add_distrib, Finset.sum_sub_distrib, ← Finset.mul_sum, h0, h1, Finset.sum_const, Finset.card_univ,
      Fintype.card_fin, nsmul_eq_mul, mul_zero]
    ring
  rw [e] at h
  simp only [Finset.sum_const, Finset.card_univ, Fintype.card_fin, nsmul_eq_mul] at h
  nlinarith

/-! ### When a value is returned -/

theorem gramForm_pair {n : Nat} (σ : ℝ) (z : Fin n → ℝ) (r s : Fin n) :
    gramForm σ z (Pi.single r 1 - Pi.single s 1) = 2 * (1 - gauss σ (z r) (z s)) := by
  have hc : centre (Pi.single r 1 - Pi.single s 1 : Fin n → ℝ) = Pi.single r 1 - Pi.single s 1 := by
    funext q
    unfold centre
    have : ∑ q : Fin n, (Pi.single r 1 - Pi.single s 1 : Fin n → ℝ) q = 0 := by
      simp [Finset.sum_sub_distrib]
    rw [this, zero_div, sub_zero]
  unfold gramForm
  rw [hc]
  have e : ∀ a : Fin n, ∑ b : Fin n, (Pi.single r 1 - Pi.single s 1 : Fin n → ℝ) a * (Pi.single r 1 - Pi.single s 1 : Fin n → ℝ) b * gauss σ (z a) (z b) =
      (Pi.single r 1 - Pi.single s 1 : Fin n → ℝ) a * (gauss σ (z a) (z r) - gauss σ (z a) (z s)) := by
    intro a
    have : ∀ b, (Pi.single r 1 - Pi.single s 1 : Fin n → ℝ) a * (Pi.single r 1 - Pi.single s 1 : Fin n → ℝ) b * gauss σ (z a) (z b) =
        (if b = r then (Pi.single r 1 - Pi.single s 1 : Fin n → ℝ) a * gauss σ (z a) (z b) else 0) -
        (if b = s then (Pi.single r 1 - Pi.single s 1 : Fin n → ℝ) a * gauss σ (z a) (z b) else 0) := by
      intro b
      simp only [Pi.sub_apply, Pi.single_apply]
      split_ifs <;> ring
    simp only [this, Finset.sum_sub_distrib, Finset.sum_ite_eq', Finset.mem_univ, if_true]
    ring
  simp only [e]
  have : ∀ a, (Pi.single r 1 - Pi.single s 1 : Fin n → ℝ) a * (gauss σ (z a) (z r) - gauss σ (z a) (z s)) =
      (if a = r then (gauss σ (z a) (z r) - gauss σ (z a) (z s)) else 0) - (if a = s then (gauss σ (z a) (z r) - gauss σ (z a) (z s)) else 0) := by
    intro a
    simp only [Pi.sub_apply, Pi.single_apply]
    split_ifs <;> ring
  simp only [this, Finset.sum_sub_distrib, Finset.sum_ite_eq', Finset.mem_univ, if_true]
  rw [gauss_self, gauss_self, gauss_symm σ (z s) (z r)]
  ring

theorem pair_norm {n : Nat} {r s : Fin n} (hrs : r ≠ s) : (Pi.single r 1 - Pi.single s 1 : Fin n → ℝ) ⬝ᵥ (Pi.single r 1 - Pi.single s 1) = 2 := by
  rw [sub_dotProduct, dotProduct_sub, dotProduct_sub]
  simp [hrs, hrs.symm]
  norm_num

/-- Size of the part of the approximation, `0` if nothing is kept. -/
theorem approx_zero {R : Routines} {n m : Nat} {z : Fin n → ℝ} {G : Matrix (Fin n) (Fin m) ℝ} (h : factor n z = some ⟨m, G⟩)
    (h0 : (indexes R G (params n).1).length = 0) : approx R z = 0 := by
  unfold approx
  rw [h]
  simp only
  unfold lowRank
  ext i j
  rw [mul_apply]
  refine Finset.sum_eq_zero fun a _ => ?_
  exact absurd a.2 (by omega)

theorem kept_of_small {R : Routines} (hR : Exact R) {n : Nat} (hn : n ≠ 0) (hbig : n ≤ 24000) {z : Fin n → ℝ} (h0 : ∑ r, z r = 0)
    (h1 : ∑ r, z r ^ 2 = n) : approx R z ≠ 0 := by
  intro hz
  obtain ⟨r, s, hrs⟩ := far_pair hn h0 h1
  have hne : r ≠ s := by rintro rfl; norm_num at hrs
  obtain ⟨-, h⟩ := approx_near hR hn z
  obtain ⟨-, -, h3⟩ := h (Pi.single r 1 - Pi.single s 1)
  rw [hz, zero_mulVec, dotProduct_zero, zero_add, gramForm_pair _ _ r s, pair_norm hne] at h3
  have hn' : (n : ℝ) ≤ 24000 := by exact_mod_cast hbig
  have he : Real.exp 1 > 2.7 := by have := Real.exp_one_gt_d9; norm_num at this ⊢; linarith
  unfold params at h3
  split_ifs at h3 with hc
  · simp only at h3
    have hg : gauss (1 / 2) (z r) (z s) ≤ 1 / 39 := by
      unfold gauss
      have : -(z r - z s) ^ 2 / (2 * (1 / 2) ^ 2) ≤ -4 := by
        rw [show (2 : ℝ) * (1 / 2) ^ 2 = 1 / 2 by norm_num]
        linarith
      refine (Real.exp_le_exp.2 this).trans ?_
      rw [Real.exp_neg, ← one_div]
      have h4 : Real.exp 4 = Real.exp 1 ^ 4 := by rw [← Real.exp_nat_mul]; norm_num
      refine one_div_le_one_div_of_le (by norm_num) ?_
      rw [h4]
      have : (2.7 : ℝ) ^ 4 ≤ Real.exp 1 ^ 4 := pow_le_pow_left₀ (by norm_num) he.le 4
      norm_num at this ⊢
      linarith
    linarith
  · simp only at h3
    have hg : gauss 1 (z r) (z s) ≤ 1 / 2.7 := by
      unfold gauss
      have : -(z r - z s) ^ 2 / (2 * 1 ^ 2) ≤ -1 := by
        rw [show (2 : ℝ) * 1 ^ 2 = 2 by norm_num]
        linarith
      refine (Real.exp_le_exp.2 this).trans ?_
      rw [Real.exp_neg, ← one_div]
      exact one_div_le_one_div_of_le (by norm_num) he.le
    have hn2 : (n : ℝ) ≤ 1000 := by exact_mod_cast not_lt.1 hc
    norm_num at hg
    linarith

theorem fcorrZ_returns {R : Routines} {n : Nat} {z w : Fin n → ℝ} (h : approx R z ≠ 0) : ∃ v, fcorrZ R z w = some v := by
  obtain ⟨m, s, h1, -, -, -⟩ := factor_spec z
  obtain ⟨m', s', h1', -, -, -⟩ := factor_spec w
  unfold fcorrZ
  rw [h1, h1']
  simp only
  rw [if_neg]
  · exact ⟨_, rfl⟩
  · intro h0
    exact h (approx_zero h1 (by omega))

/-- With a matrix that is zero the largest correlation is zero. -/
theorem fcorrZ_zero {R : Routines} (hR : Exact R) {n : Nat} (hn : n ≠ 0) {z w : Fin n → ℝ} (h : approx R z = 0) {v : ℝ}
    (hv : fcorrZ R z w = some v) : v = 0 := by
  obtain ⟨⟨-, α, β, -, -, e⟩, -, -⟩ := fcorrZ_max hR hn hv
  rw [h] at e
  unfold regCorr at e
  rw [zero_mulVec, zero_dotProduct, zero_div] at e
  exact e.symm

theorem fcorrZ_none {R : Routines} {n : Nat} {z w : Fin n → ℝ} (hz : ∀ m G, factor n z = some ⟨m, G⟩ → (indexes R G (params n).1).length = 0)
    (hw : ∀ m G, factor n w = some ⟨m, G⟩ → (indexes R G (params n).1).length = 0) : fcorrZ R z w = none := by
  unfold fcorrZ
  split
  · rename_i G _ L h1 h2
    simp only
    rw [if_pos (by rw [hz _ _ h1, hw _ _ h2])]
  · rfl

/-! ### Rare events -/

/-- Two-valued sample in which one value occurs once. -/
theorem gramForm_rare {n : Nat} (hn : n ≠ 0) {σ : ℝ} (z : Fin n → ℝ) (r0 : Fin n) (A B : ℝ) (hz : ∀ r, z r = if r = r0 then A else B) (v : Fin n → ℝ) :
    gramForm σ z v ≤ 2 * (1 - gauss σ A B) * (v ⬝ᵥ v) := by
  have hsum := centre_sum hn v
  set u := centre v with hu
  have hk : ∀ r s, gauss σ (z r) (z s) = gauss σ A B + (1 - gauss σ A B) * (if r = r0 then (if s = r0 then 1 else 0) else (if s = r0 then 0 else 1)) := by
    intro r s
    rw [hz r, hz s]
    split_ifs
    · rw [gauss_self]; ring
    · ring
    · rw [gauss_symm]; ring
    · rw [gauss_self]; ring
  have e : gramForm σ z v = 2 * (1 - gauss σ A B) * u r0 ^ 2 := by
    unfold gramForm
    rw [← hu]
    have hin : ∀ r, ∑ s, u r * u s * gauss σ (z r) (z s) = (1 - gauss σ A B) * (u r * (if r = r0 then u r0 else -u r0)) := by
      intro r
      have e1 : ∀ s, u r * u s * gauss σ (z r) (z s) = gauss σ A B * u r * u s + (1 - gauss σ A B) * u r *
          (if r = r0 then (if s = r0 then u s else 0) else (u s - if s = r0 then u s else 0)) := by
        intro s
        rw [hk]
        split_ifs <;> ring
      simp only [e1, Finset.sum_add_distrib, ← Finset.mul_sum, hsum]
      by_cases hr : r = r0
      · simp only [hr, if_true, Finset.sum_ite_eq', Finset.mem_univ]; ring
      · simp only [hr, if_false, Finset.sum_sub_distrib, hsum, Finset.sum_ite_eq', Finset.mem_univ, if_true]; ring
    simp only [hin, ← Finset.mul_sum]
    have e2 : ∀ r, u r * (if r = r0 then u r0 else -u r0) = (if r = r0 then 2 * u r0 * u r else 0) - u r0 * u r := by
      intro r
      split_ifs with h
      · rw [h]; ring
      · ring
    simp only [e2, Finset.sum_sub_distrib, ← Finset.mul_sum, hsum, Finset.sum_ite_eq', Finset.mem_univ, if_true]
    ring
  rw [e]
  have hle : gauss σ A B ≤ 1 := by
    unfold gauss
    rw [← Real.exp_zero]
    refine Real.exp_le_exp.2 (div_nonpos_of_nonpos_of_nonneg ?_ (by positivity))
    nlinarith [sq_nonneg (A - B)]
  have h1 : u r0 ^ 2 ≤ v ⬝ᵥ v := (Finset.single_le_sum (f := fun r => u r ^ 2) (fun r _ => sq_nonneg _) (Finset.mem_univ r0)).trans (centre_sq_le v)
  exact mul_le_mul_of_nonneg_left h1 (by linarith)

theorem rare_dropped {R : Routines} (hR : Exact R) {n : Nat} (hn : 100000 ≤ n) (z : Fin n → ℝ) (r0 : Fin n) (A B : ℝ)
    (hz : ∀ r, z r = if r = r0 then A else B) {m : Nat} {G : Matrix (Fin n) (Fin m) ℝ} (h : factor n z = some ⟨m, G⟩) :
    (indexes R G (params n).1).length = 0 := by
  by_contra hne
  have hn0 : n ≠ 0 := by omega
  let a : Fin (indexes R G (params n).1).length := ⟨0, Nat.pos_of_ne_zero hne⟩
  have hκ : (params n).1 = 2 / 1000 := by unfold params; rw [if_pos (by omega)]
  have hkept := indexes_mem hR G (params n).1 a
  set U := svdU R G (params n).1 with hU
  have horth : Uᵀ * U = 1 := svdU_orth hR G (params_pos n).1 hn0
  set v := U *ᵥ Pi.single a 1 with hv
  have hvv : v ⬝ᵥ v = 1 := by rw [hv, dot_mulVec_of_orth horth]; simp
  have hform : v ⬝ᵥ approx R z *ᵥ v = kept R G (params n).1 a := by
    have : approx R z = lowRank U (kept R G (params n).1) := by unfold approx; rw [h]
    rw [this, lowRank_mulVec, hv, mulVec_mulVec _ Uᵀ U, horth, one_mulVec, dot_mulVec_of_orth horth]
    simp
  obtain ⟨-, hnear⟩ := approx_near hR hn0 z
  have h2 := (hnear v).2.1
  rw [hform] at h2
  have h3 := gramForm_rare hn0 (σ := (params n).2) z r0 A B hz v
  rw [hvv] at h3
  have h4 : 0 < gauss (params n).2 A B := Real.exp_pos _
  have hn' : (100000 : ℝ) ≤ n := by exact_mod_cast hn
  have h5 : (2 : ℝ) ≤ n * ((params n).1 * (1 / 100)) := by rw [hκ]; linarith
  linarith

theorem standardize_rare {n : Nat} (x : Fin n → ℝ) (r0 : Fin n) (A B : ℝ) (hx : ∀ r, x r = if r = r0 then A else B) {z : Fin n → ℝ}
    (h : standardize x = some z) : ∃ A' B', ∀ r, z r = if r = r0 then A' else B' := by
  rw [standardize_eq h]
  refine ⟨(A - sampleMean x) / √((∑ q, (x q - sampleMean x) ^ 2) / n), (B - sampleMean x) / √((∑ q, (x q - sampleMean x) ^ 2) / n), fun r => ?_⟩
  unfold zscore
  conv_lhs => rw [hx r]
  split_ifs <;> rfl

/-! ### Shapes -/

theorem firstColumn_one (n : Nat) : firstColumn n [] = true ∧ firstColumn n [1] = true := by
  simp [firstColumn, sqDistShape, broadcast, broadcastRev, column, tile, fitsRev]

theorem firstColumn_many (n k : Nat) (hk : 2 ≤ k) : firstColumn n [k] = false := by
  have h1 : k ≠ 1 := by omega
  have h3 : 1 ≠ k := by omega
  simp [firstColumn, sqDistShape, broadcast, broadcastRev, column, tile, fitsRev, h1, h3]

end Verif.FCorr
