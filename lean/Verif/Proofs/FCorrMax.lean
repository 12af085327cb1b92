import Verif.Spec.FCorr
import Verif.Model.FCorr
import Mathlib.Tactic.Linarith
import Mathlib.Tactic.Ring
import Mathlib.Tactic.Positivity
import Mathlib.Tactic.FieldSimp
import Mathlib.Analysis.Matrix.PosDef

set_option autoImplicit false
set_option linter.unusedSectionVars false
namespace Verif.FCorr

open Matrix

/-! ### Norms -/

theorem dot_self_nonneg {m : Nat} (v : Fin m → ℝ) : 0 ≤ v ⬝ᵥ v := Finset.sum_nonneg fun _ _ => mul_self_nonneg _

theorem dot_self_pos {m : Nat} {v : Fin m → ℝ} (h : v ≠ 0) : 0 < v ⬝ᵥ v := by
  rcases (dot_self_nonneg v).lt_or_eq with h1 | h1
  · exact h1
  · exact absurd (dotProduct_self_eq_zero.1 h1.symm) h

theorem vnorm_nonneg {m : Nat} (v : Fin m → ℝ) : 0 ≤ vnorm v := Real.sqrt_nonneg _

theorem vnorm_mul_self {m : Nat} (v : Fin m → ℝ) : vnorm v * vnorm v = v ⬝ᵥ v := Real.mul_self_sqrt (dot_self_nonneg v)

theorem vnorm_pos {m : Nat} {v : Fin m → ℝ} (h : v ≠ 0) : 0 < vnorm v := Real.sqrt_pos.2 (dot_self_pos h)

theorem vnorm_le {m k : Nat} {v : Fin m → ℝ} {u : Fin k → ℝ} (h : v ⬝ᵥ v ≤ u ⬝ᵥ u) : vnorm v ≤ vnorm u := Real.sqrt_le_sqrt h

theorem dot_le_norms {m : Nat} (u v : Fin m → ℝ) : u ⬝ᵥ v ≤ vnorm u * vnorm v := by
  have h := Finset.sum_mul_sq_le_sq_mul_sq Finset.univ u v
  have h2 : (u ⬝ᵥ v) ^ 2 ≤ (vnorm u * vnorm v) ^ 2 := by
    have e : (vnorm u * vnorm v) ^ 2 = (u ⬝ᵥ u) * (v ⬝ᵥ v) := by
      rw [← vnorm_mul_self u, ← vnorm_mul_self v]; ring
    rw [e]
    refine h.trans_eq ?_
    simp only [dotProduct, sq]
  exact (le_abs_self _).trans (abs_le_of_sq_le_sq h2 (mul_nonneg (vnorm_nonneg u) (vnorm_nonneg v)))

theorem dot_sq_le {m : Nat} (u v : Fin m → ℝ) : (u ⬝ᵥ v) ^ 2 ≤ (u ⬝ᵥ u) * (v ⬝ᵥ v) := by
  refine (Finset.sum_mul_sq_le_sq_mul_sq Finset.univ u v).trans_eq ?_
  simp only [dotProduct, sq]

/-! ### Orthonormal columns -/

theorem dot_mulVec_of_orth {n p : Nat} {U : Matrix (Fin n) (Fin p) ℝ} (hU : Uᵀ * U = 1) (a b : Fin p → ℝ) :
    (U *ᵥ a) ⬝ᵥ (U *ᵥ b) = a ⬝ᵥ b := by
  rw [dotProduct_mulVec, ← mulVec_transpose, mulVec_mulVec, hU, one_mulVec]

theorem bessel {n p : Nat} {U : Matrix (Fin n) (Fin p) ℝ} (hU : Uᵀ * U = 1) (f : Fin n → ℝ) :
    (Uᵀ *ᵥ f) ⬝ᵥ (Uᵀ *ᵥ f) ≤ f ⬝ᵥ f := by
  have h := dot_self_nonneg (f - U *ᵥ (Uᵀ *ᵥ f))
  have e1 : (U *ᵥ (Uᵀ *ᵥ f)) ⬝ᵥ (U *ᵥ (Uᵀ *ᵥ f)) = (Uᵀ *ᵥ f) ⬝ᵥ (Uᵀ *ᵥ f) := dot_mulVec_of_orth hU _ _
  have e2 : f ⬝ᵥ (U *ᵥ (Uᵀ *ᵥ f)) = (Uᵀ *ᵥ f) ⬝ᵥ (Uᵀ *ᵥ f) := by
    rw [dotProduct_mulVec, ← mulVec_transpose]
  rw [sub_dotProduct, dotProduct_sub, dotProduct_sub, e1, e2, dotProduct_comm _ f, dotProduct_comm (U *ᵥ _) f, e2] at h
  linarith

/-! ### Symmetric matrices -/

theorem form_ge_smallest {m : Nat} {W : Matrix (Fin m) (Fin m) ℝ} (hW : Wᵀ = W) {w : ℝ}
    (hmin : ∀ μ v, v ≠ 0 → W *ᵥ v = μ • v → w ≤ μ) (v : Fin m → ℝ) : w * (v ⬝ᵥ v) ≤ v ⬝ᵥ W *ᵥ v := by
  have hH : (W - w • (1 : Matrix (Fin m) (Fin m) ℝ)).IsHermitian := by
    unfold Matrix.IsHermitian
    rw [conjTranspose_eq_transpose_of_trivial, transpose_sub, hW, transpose_smul, transpose_one]
  have hpsd : (W - w • (1 : Matrix (Fin m) (Fin m) ℝ)).PosSemidef := by
    rw [hH.posSemidef_iff_eigenvalues_nonneg]
    intro i
    have h1 := hH.mulVec_eigenvectorBasis i
    have hne : (hH.eigenvectorBasis i).ofLp ≠ 0 := by
      intro h0
      have := hH.eigenvectorBasis.orthonormal.ne_zero i
      exact this (by ext k; exact congrFun h0 k)
    rw [sub_mulVec, smul_mulVec, one_mulVec] at h1
    have h2 : W *ᵥ (hH.eigenvectorBasis i).ofLp = (hH.eigenvalues i + w) • (hH.eigenvectorBasis i).ofLp := by
      rw [add_smul, ← h1, sub_add_cancel]
    have := hmin _ _ hne h2
    simp only [Pi.zero_apply]
    linarith
  have h := hpsd.dotProduct_mulVec_nonneg v
  rw [star_trivial, sub_mulVec, smul_mulVec, one_mulVec, dotProduct_sub, dotProduct_smul, smul_eq_mul] at h
  linarith

/-! ### The block matrix -/

/-- The first and the second part of a vector. -/
def fstPart {p q : Nat} (v : Fin (p + q) → ℝ) : Fin p → ℝ := fun i => v (Fin.castAdd q i)
def sndPart {p q : Nat} (v : Fin (p + q) → ℝ) : Fin q → ℝ := fun i => v (Fin.natAdd p i)

theorem dot_parts {p q : Nat} (u v : Fin (p + q) → ℝ) : u ⬝ᵥ v = fstPart u ⬝ᵥ fstPart v + sndPart u ⬝ᵥ sndPart v := by
  simp only [dotProduct, Fin.sum_univ_add, fstPart, sndPart]

theorem fst_append {p q : Nat} (a : Fin p → ℝ) (b : Fin q → ℝ) : fstPart (Fin.append a b) = a := by
  funext i; simp [fstPart]

theorem snd_append {p q : Nat} (a : Fin p → ℝ) (b : Fin q → ℝ) : sndPart (Fin.append a b) = b := by
  funext i; simp [sndPart]

theorem parts_ext {p q : Nat} {u v : Fin (p + q) → ℝ} (h1 : fstPart u = fstPart v) (h2 : sndPart u = sndPart v) : u = v := by
  funext i
  refine Fin.addCases (fun i => ?_) (fun i => ?_) i
  · exact congrFun h1 i
  · exact congrFun h2 i

theorem blocks_mulVec {p q : Nat} (M : Matrix (Fin q) (Fin p) ℝ) (v : Fin (p + q) → ℝ) :
    fstPart (blocks M *ᵥ v) = fstPart v + Mᵀ *ᵥ sndPart v ∧ sndPart (blocks M *ᵥ v) = M *ᵥ fstPart v + sndPart v := by
  unfold blocks
  rw [reindex_apply, submatrix_mulVec_equiv, fromBlocks_mulVec, one_mulVec, one_mulVec]
  constructor
  · funext i
    simp [fstPart, sndPart, Function.comp_def, mulVec, dotProduct]
  · funext i
    simp [fstPart, sndPart, Function.comp_def, mulVec, dotProduct]

theorem blocks_symm {p q : Nat} (M : Matrix (Fin q) (Fin p) ℝ) : (blocks M)ᵀ = blocks M := by
  unfold blocks
  rw [transpose_reindex, fromBlocks_transpose, transpose_one, transpose_one, transpose_transpose]

theorem blocks_form {p q : Nat} (M : Matrix (Fin q) (Fin p) ℝ) (v : Fin (p + q) → ℝ) :
    v ⬝ᵥ blocks M *ᵥ v = v ⬝ᵥ v + 2 * (sndPart v ⬝ᵥ M *ᵥ fstPart v) := by
  obtain ⟨h1, h2⟩ := blocks_mulVec M v
  rw [dot_parts, h1, h2, dot_parts v v, dotProduct_add, dotProduct_add]
  have : fstPart v ⬝ᵥ Mᵀ *ᵥ sndPart v = sndPart v ⬝ᵥ M *ᵥ fstPart v := by
    rw [dotProduct_mulVec, vecMul_transpose, dotProduct_comm]
  rw [this]
  ring

/-! ### The largest regularised correlation -/

/-- One variable: orthonormal columns `U`, positive weights `D`. -/
noncomputable def lowRank {n p : Nat} (U : Matrix (Fin n) (Fin p) ℝ) (D : Fin p → ℝ) : Matrix (Fin n) (Fin n) ℝ :=
  U * diagonal D * Uᵀ

theorem lowRank_mulVec {n p : Nat} (U : Matrix (Fin n) (Fin p) ℝ) (D : Fin p → ℝ) (v : Fin n → ℝ) :
    lowRank U D *ᵥ v = U *ᵥ (diagonal D *ᵥ (Uᵀ *ᵥ v)) := by
  unfold lowRank
  rw [mulVec_mulVec, mulVec_mulVec, Matrix.mul_assoc]

variable {n p q : Nat} {U : Matrix (Fin n) (Fin p) ℝ} {V : Matrix (Fin n) (Fin q) ℝ} {D : Fin p → ℝ} {F : Fin q → ℝ} {c : ℝ}

theorem lowRank_reg (hU : Uᵀ * U = 1) (hD : ∀ k, 0 < D k) (hc : 0 < c) (α : Fin n → ℝ) :
    lowRank U D *ᵥ α = U *ᵥ (diagonal (fun k => D k / (c + D k)) *ᵥ (Uᵀ *ᵥ (lowRank U D *ᵥ α + c • α))) := by
  rw [lowRank_mulVec, mulVec_add, mulVec_mulVec _ Uᵀ U, hU, one_mulVec, mulVec_smul]
  congr 1
  funext k
  rw [mulVec_diagonal, mulVec_diagonal, Pi.add_apply, Pi.smul_apply, mulVec_diagonal, smul_eq_mul]
  have := hD k
  have h : c + D k ≠ 0 := by positivity
  field_simp
  ring

theorem lowRank_solve (hU : Uᵀ * U = 1) (hD : ∀ k, 0 < D k) (hc : 0 < c) (a : Fin p → ℝ) :
    lowRank U D *ᵥ (U *ᵥ fun k => a k / (c + D k)) + c • (U *ᵥ fun k => a k / (c + D k)) = U *ᵥ a := by
  rw [lowRank_mulVec, mulVec_mulVec _ Uᵀ U, hU, one_mulVec, ← mulVec_smul, ← mulVec_add]
  congr 1
  funext k
  rw [Pi.add_apply, mulVec_diagonal, Pi.smul_apply, smul_eq_mul]
  have := hD k
  have h : c + D k ≠ 0 := by positivity
  field_simp
  ring

theorem numerator (hU : Uᵀ * U = 1) (hV : Vᵀ * V = 1) (hD : ∀ k, 0 < D k) (hF : ∀ k, 0 < F k) (hc : 0 < c) (α β : Fin n → ℝ) :
    (lowRank U D *ᵥ α) ⬝ᵥ (lowRank V F *ᵥ β) = (Vᵀ *ᵥ (lowRank V F *ᵥ β + c • β)) ⬝ᵥ
      (cross (fun k => D k / (c + D k)) U (fun k => F k / (c + F k)) V *ᵥ (Uᵀ *ᵥ (lowRank U D *ᵥ α + c • α))) := by
  conv_lhs => rw [lowRank_reg hU hD hc α, lowRank_reg hV hF hc β]
  unfold cross
  rw [← mulVec_mulVec, ← mulVec_mulVec, ← mulVec_mulVec, dotProduct_comm (U *ᵥ _), dotProduct_comm _ (diagonal _ *ᵥ _)]
  generalize Uᵀ *ᵥ (lowRank U D *ᵥ α + c • α) = a
  generalize Vᵀ *ᵥ (lowRank V F *ᵥ β + c • β) = b
  generalize diagonal (fun k => D k / (c + D k)) *ᵥ a = a'
  rw [dotProduct_comm (V *ᵥ _), dotProduct_mulVec, ← mulVec_transpose, dotProduct_comm]
  simp only [dotProduct, mulVec_diagonal]
  refine Finset.sum_congr rfl fun k _ => ?_
  ring

theorem shrink (hD : ∀ k, 0 < D k) (hc : 0 < c) {a : Fin p → ℝ} (ha : a ≠ 0) :
    (diagonal (fun k => D k / (c + D k)) *ᵥ a) ⬝ᵥ (diagonal (fun k => D k / (c + D k)) *ᵥ a) < a ⬝ᵥ a := by
  obtain ⟨k0, hk0⟩ := Function.ne_iff.1 ha
  have hR : ∀ k, 0 ≤ D k / (c + D k) ∧ D k / (c + D k) < 1 := fun k => by
    have := hD k
    exact ⟨by positivity, (div_lt_one (by positivity)).2 (by linarith)⟩
  simp only [dotProduct, mulVec_diagonal]
  refine Finset.sum_lt_sum (fun k _ => ?_) ⟨k0, Finset.mem_univ _, ?_⟩
  · nlinarith [hR k, mul_self_nonneg (a k), mul_nonneg (hR k).1 (sub_nonneg.2 (hR k).2.le)]
  · have h1 : 0 < a k0 * a k0 := mul_self_pos.2 hk0
    have h2 : D k0 / (c + D k0) * (D k0 / (c + D k0)) < 1 := by nlinarith [hR k0]
    nlinarith

theorem shrink_le (hD : ∀ k, 0 < D k) (hc : 0 < c) (a : Fin p → ℝ) :
    (diagonal (fun k => D k / (c + D k)) *ᵥ a) ⬝ᵥ (diagonal (fun k => D k / (c + D k)) *ᵥ a) ≤ a ⬝ᵥ a := by
  by_cases h : a = 0
  · subst h; simp
  · exact (shrink hD hc h).le

theorem cross_form (a : Fin p → ℝ) (b : Fin q → ℝ) (R1 : Fin p → ℝ) (R2 : Fin q → ℝ) :
    b ⬝ᵥ (cross R1 U R2 V *ᵥ a) = (V *ᵥ (diagonal R2 *ᵥ b)) ⬝ᵥ (U *ᵥ (diagonal R1 *ᵥ a)) := by
  unfold cross
  rw [← mulVec_mulVec, ← mulVec_mulVec, ← mulVec_mulVec]
  generalize diagonal R1 *ᵥ a = a'
  rw [dotProduct_comm (V *ᵥ _), dotProduct_mulVec (U *ᵥ a'), ← mulVec_transpose, dotProduct_comm (Vᵀ *ᵥ _)]
  simp only [dotProduct, mulVec_diagonal]
  refine Finset.sum_congr rfl fun k _ => ?_
  ring

/-- The block matrix is positive definite. -/
theorem blocks_pos (hU : Uᵀ * U = 1) (hV : Vᵀ * V = 1) (hD : ∀ k, 0 < D k) (hF : ∀ k, 0 < F k) (hc : 0 < c)
    {v : Fin (p + q) → ℝ} (hv : v ≠ 0) :
    0 < v ⬝ᵥ blocks (cross (fun k => D k / (c + D k)) U (fun k => F k / (c + F k)) V) *ᵥ v := by
  rw [blocks_form, cross_form, dot_parts]
  set a := fstPart v
  set b := sndPart v
  set a' := diagonal (fun k => D k / (c + D k)) *ᵥ a with ha'
  set b' := diagonal (fun k => F k / (c + F k)) *ᵥ b with hb'
  have h1 := dot_self_nonneg (V *ᵥ b' + U *ᵥ a')
  rw [add_dotProduct, dotProduct_add, dotProduct_add, dot_mulVec_of_orth hV, dot_mulVec_of_orth hU,
    dotProduct_comm (U *ᵥ a')] at h1
  by_cases ha : a = 0
  · have hb : b ≠ 0 := fun hb => hv (parts_ext ha hb)
    have := shrink hF hc hb
    have := shrink_le hD hc a
    linarith
  · have := shrink hD hc ha
    have := shrink_le hF hc b
    linarith

theorem max_of_smallest (hU : Uᵀ * U = 1) (hV : Vᵀ * V = 1) (hD : ∀ k, 0 < D k) (hF : ∀ k, 0 < F k) (hc : 0 < c)
    (hn : n ≠ 0) {w : ℝ} (hw : IsSmallestEigenvalue (blocks (cross (fun k => D k / (c + D k)) U (fun k => F k / (c + F k)) V)) w) :
    IsMaxRegCorr c (lowRank U D) (lowRank V F) (1 - w) ∧ 0 ≤ 1 - w ∧ 1 - w < 1 := by
  obtain ⟨⟨v, hv, hWv⟩, hmin⟩ := hw
  set M := cross (fun k => D k / (c + D k)) U (fun k => F k / (c + F k)) V with hM
  have heig : ∀ (μ : ℝ) u, u ≠ 0 → blocks M *ᵥ u = μ • u → 0 < μ := by
    intro μ u hu he
    have h := blocks_pos hU hV hD hF hc hu
    rw [← hM, he, dotProduct_smul, smul_eq_mul] at h
    exact pos_of_mul_pos_left h (dot_self_nonneg u)
  have hwpos : 0 < w := heig w v hv hWv
  have hform := form_ge_smallest (blocks_symm M) (w := w) (fun μ u hu he => by
    have h1 := hmin μ u hu he
    rwa [abs_of_pos hwpos, abs_of_pos (heig μ u hu he)] at h1)
  set ρ := 1 - w with hρ
  have hMle : ∀ a b, 2 * (b ⬝ᵥ M *ᵥ a) ≤ ρ * (a ⬝ᵥ a + b ⬝ᵥ b) := by
    intro a b
    have h := hform (Fin.append a (-b))
    rw [blocks_form, dot_parts, fst_append, snd_append, neg_dotProduct, neg_dotProduct, dotProduct_neg, neg_neg] at h
    rw [hρ]
    linarith
  have hρ0 : 0 ≤ ρ := by
    have h := hMle (fstPart v) (sndPart v)
    have h' := hMle (fstPart v) (-sndPart v)
    rw [neg_dotProduct, neg_dotProduct, dotProduct_neg, neg_neg] at h'
    have h2 := dot_self_pos hv
    rw [dot_parts] at h2
    nlinarith
  have hMnorm : ∀ a b, b ⬝ᵥ M *ᵥ a ≤ ρ * (vnorm a * vnorm b) := by
    intro a b
    by_cases ha : a = 0
    · subst ha; simp only [mulVec_zero, dotProduct_zero]; exact mul_nonneg hρ0 (mul_nonneg (vnorm_nonneg _) (vnorm_nonneg _))
    by_cases hb : b = 0
    · subst hb; simp only [zero_dotProduct]; exact mul_nonneg hρ0 (mul_nonneg (vnorm_nonneg _) (vnorm_nonneg _))
    have h := hMle ((vnorm b) • a) ((vnorm a) • b)
    rw [mulVec_smul, dotProduct_smul, smul_dotProduct, smul_dotProduct, dotProduct_smul, smul_dotProduct, dotProduct_smul,
      ← vnorm_mul_self a, ← vnorm_mul_self b] at h
    simp only [smul_eq_mul] at h
    have hpos := mul_pos (vnorm_pos ha) (vnorm_pos hb)
    have h2 : (vnorm a * vnorm b) * (b ⬝ᵥ M *ᵥ a) ≤ (vnorm a * vnorm b) * (ρ * (vnorm a * vnorm b)) := by
      nlinarith
    exact le_of_mul_le_mul_left h2 hpos
  refine ⟨⟨fun α β => ?_, ?_⟩, hρ0, by rw [hρ]; linarith⟩
  · unfold regCorr
    rw [numerator hU hV hD hF hc, ← hM]
    refine div_le_of_le_mul₀ (mul_nonneg (vnorm_nonneg _) (vnorm_nonneg _)) hρ0 ((hMnorm _ _).trans ?_)
    exact mul_le_mul_of_nonneg_left (mul_le_mul (vnorm_le (bessel hU _)) (vnorm_le (bessel hV _)) (vnorm_nonneg _) (vnorm_nonneg _)) hρ0
  · obtain ⟨h1, h2⟩ := blocks_mulVec M v
    set a := fstPart v with ha
    set b := sndPart v with hb
    have hMa : M *ᵥ a = -(ρ • b) := by
      have e : sndPart (blocks M *ᵥ v) = w • b := by rw [hWv]; rfl
      rw [e] at h2
      have : M *ᵥ a = w • b - b := eq_sub_of_add_eq h2.symm
      rw [this, hρ, sub_smul, one_smul, neg_sub]
    have hMb : Mᵀ *ᵥ b = -(ρ • a) := by
      have e : fstPart (blocks M *ᵥ v) = w • a := by rw [hWv]; rfl
      rw [e] at h1
      have : Mᵀ *ᵥ b = w • a - a := eq_sub_of_add_eq' h1.symm
      rw [this, hρ, sub_smul, one_smul, neg_sub]
    rcases hρ0.lt_or_eq with hlt | h0
    · have hab : a ⬝ᵥ a = b ⬝ᵥ b := by
        have e1 : b ⬝ᵥ M *ᵥ a = -(ρ * (b ⬝ᵥ b)) := by rw [hMa, dotProduct_neg, dotProduct_smul, smul_eq_mul]
        have e2 : b ⬝ᵥ M *ᵥ a = -(ρ * (a ⬝ᵥ a)) := by
          rw [dotProduct_mulVec, ← mulVec_transpose, hMb, neg_dotProduct, smul_dotProduct, smul_eq_mul]
        have := e1.symm.trans e2
        have h3 : ρ * (b ⬝ᵥ b) = ρ * (a ⬝ᵥ a) := by linarith
        exact (mul_left_cancel₀ hlt.ne' h3).symm
      have ha0 : a ≠ 0 := by
        intro h
        have hb0 : b = 0 := by
          rw [h, zero_dotProduct] at hab
          exact dotProduct_self_eq_zero.1 hab.symm
        exact hv (parts_ext h hb0)
      have hb0 : b ≠ 0 := by
        intro h
        rw [h, zero_dotProduct] at hab
        exact ha0 (dotProduct_self_eq_zero.1 hab)
      have e1 := lowRank_solve hU hD hc a
      have e2 := lowRank_solve hV hF hc (-b)
      have n1 : vnorm (U *ᵥ a) = vnorm a := by unfold vnorm; rw [dot_mulVec_of_orth hU]
      have n2 : vnorm (V *ᵥ (-b)) = vnorm b := by unfold vnorm; rw [dot_mulVec_of_orth hV, neg_dotProduct_neg]
      refine ⟨U *ᵥ fun k => a k / (c + D k), V *ᵥ fun k => (-b) k / (c + F k), ?_, ?_, ?_⟩
      · intro h
        rw [h, mulVec_zero, smul_zero, add_zero] at e1
        have := vnorm_pos ha0
        rw [← n1, ← e1] at this
        simp [vnorm] at this
      · intro h
        rw [h, mulVec_zero, smul_zero, add_zero] at e2
        have := vnorm_pos hb0
        rw [← n2, ← e2] at this
        simp [vnorm] at this
      · unfold regCorr
        rw [numerator hU hV hD hF hc, ← hM, e1, e2, n1, n2, mulVec_mulVec _ Uᵀ U, hU, one_mulVec, mulVec_mulVec _ Vᵀ V, hV, one_mulVec,
          hMa, neg_dotProduct_neg, dotProduct_smul, smul_eq_mul]
        have hvv : vnorm a = vnorm b := by unfold vnorm; rw [hab]
        rw [hvv, ← vnorm_mul_self b]
        have := vnorm_pos hb0
        field_simp
    · have hne : (fun _ => 1 : Fin n → ℝ) ≠ 0 := by
        intro h
        have := congrFun h ⟨0, Nat.pos_of_ne_zero hn⟩
        simp at this
      refine ⟨fun _ => 1, fun _ => 1, hne, hne, ?_⟩
      unfold regCorr
      rw [numerator hU hV hD hF hc, ← hM, ← h0]
      generalize Uᵀ *ᵥ (lowRank U D *ᵥ (fun _ => 1) + c • (fun _ => (1 : ℝ))) = a
      generalize Vᵀ *ᵥ (lowRank V F *ᵥ (fun _ => 1) + c • (fun _ => (1 : ℝ))) = b
      have z1 := hMle a b
      have z2 := hMle a (-b)
      rw [neg_dotProduct] at z2
      rw [← h0, zero_mul] at z1 z2
      have : b ⬝ᵥ M *ᵥ a = 0 := by linarith
      rw [this, zero_div]

theorem isMaxRegCorr_unique {K L : Matrix (Fin n) (Fin n) ℝ} {ρ ρ' : ℝ} (h : IsMaxRegCorr c K L ρ) (h' : IsMaxRegCorr c K L ρ') : ρ = ρ' := by
  obtain ⟨h1, α, β, -, -, e⟩ := h
  obtain ⟨h1', α', β', -, -, e'⟩ := h'
  exact le_antisymm (e ▸ h1' α β) (e' ▸ h1 α' β')

theorem regCorr_comm (K L : Matrix (Fin n) (Fin n) ℝ) (α β : Fin n → ℝ) : regCorr c K L α β = regCorr c L K β α := by
  unfold regCorr
  rw [dotProduct_comm, mul_comm (vnorm _)]

theorem isMaxRegCorr_comm {K L : Matrix (Fin n) (Fin n) ℝ} {ρ : ℝ} (h : IsMaxRegCorr c K L ρ) : IsMaxRegCorr c L K ρ := by
  obtain ⟨h1, α, β, ha, hb, e⟩ := h
  exact ⟨fun α β => (regCorr_comm L K α β).trans_le (h1 β α), β, α, hb, ha, (regCorr_comm L K β α).trans e⟩

end Verif.FCorr
