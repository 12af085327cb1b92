import Verif.Proofs.FCorrReturn
import Verif.Model.Camuv
import Mathlib.Tactic.FinCases

set_option autoImplicit false
set_option linter.unusedSectionVars false
namespace Verif.FCorr

open Matrix

variable {n : Nat}

/-! ### C145 -/

/-- The value does not change with units, origins and signs. -/
theorem C145_units (R : Routines) (hn : n ≠ 0) (x y : Fin n → ℝ) {a a' : ℝ} (ha : a ≠ 0) (ha' : a' ≠ 0) (b b' : ℝ) :
    fcorr R (fun r => a * x r + b) (fun r => a' * y r + b') = fcorr R x y := fcorr_affine R hn x y ha ha' b b'

/-- The value does not change if the two samples are exchanged. -/
theorem C145_symmetric {R : Routines} (hR : Exact R) (hn : n ≠ 0) (x y : Fin n → ℝ) : fcorr R x y = fcorr R y x := by
  unfold fcorr
  cases standardize x <;> cases standardize y <;> simp only
  exact fcorrZ_comm hR hn _ _

/-! ### C146 -/

/-- Up to 24000 observations a value is returned for every two samples that are not constant. -/
theorem C146_returns_partial {R : Routines} (hR : Exact R) (hbig : n ≤ 24000) (x y : Fin n → ℝ) (hx : ∃ r s, x r ≠ x s) (hy : ∃ r s, y r ≠ y s) :
    ∃ v, fcorr R x y = some v := by
  have hn : n ≠ 0 := by rintro rfl; exact hx.choose.elim0
  obtain ⟨z, hz, h0, h1⟩ := standardize_some hx
  obtain ⟨w, hw, -, -⟩ := standardize_some hy
  unfold fcorr
  rw [hz, hw]
  exact fcorrZ_returns (kept_of_small hR hn hbig h0 h1)

/-- From 100000 observations on there is an exception for two samples in which one of two values occurs once. -/
theorem C146_returns_violated {R : Routines} (hR : Exact R) (hbig : 100000 ≤ n) (x y : Fin n → ℝ) (r0 s0 : Fin n) (A B A' B' : ℝ)
    (hx : ∀ r, x r = if r = r0 then A else B) (hy : ∀ r, y r = if r = s0 then A' else B') : fcorr R x y = none := by
  unfold fcorr
  cases hz : standardize x <;> cases hw : standardize y <;> simp only
  obtain ⟨C, D, hC⟩ := standardize_rare x r0 A B hx hz
  obtain ⟨C', D', hC'⟩ := standardize_rare y s0 A' B' hy hw
  exact fcorrZ_none (fun m G h => rare_dropped hR hbig _ r0 C D hC h) (fun m G h => rare_dropped hR hbig _ s0 C' D' hC' h)

/-- … and if only one sample is of this kind, the value is zero whatever the other sample. -/
theorem C146_blind_violated {R : Routines} (hR : Exact R) (hbig : 100000 ≤ n) (x y : Fin n → ℝ) (r0 : Fin n) (A B : ℝ)
    (hx : ∀ r, x r = if r = r0 then A else B) {v : ℝ} (h : fcorr R x y = some v) : v = 0 := by
  unfold fcorr at h
  cases hz : standardize x with
  | none => rw [hz] at h; exact absurd h (by simp)
  | some z =>
    cases hw : standardize y with
    | none => rw [hz, hw] at h; exact absurd h (by simp)
    | some w =>
      rw [hz, hw] at h
      obtain ⟨C, D, hC⟩ := standardize_rare x r0 A B hx hz
      obtain ⟨m, s, h1, -, -, -⟩ := factor_spec z
      exact fcorrZ_zero hR (by omega) (approx_zero h1 (rare_dropped hR hbig z r0 C D hC h1)) h

/-! ### C147 -/

theorem value {R : Routines} (hR : Exact R) {x y : Fin n → ℝ} {v : ℝ} (h : fcorr R x y = some v) :
    ∃ K L, NearGram (params n).2 (2 * (n * (params n).1 / 100)) (zscore x) K ∧ NearGram (params n).2 (2 * (n * (params n).1 / 100)) (zscore y) L ∧
      IsMaxRegCorr (n * (params n).1 / 2) K L v ∧ 0 ≤ v ∧ v < 1 := by
  unfold fcorr at h
  cases hz : standardize x with
  | none => rw [hz] at h; exact absurd h (by simp)
  | some z =>
    cases hw : standardize y with
    | none => rw [hz, hw] at h; exact absurd h (by simp)
    | some w =>
      rw [hz, hw] at h
      have hn : n ≠ 0 := by
        rintro rfl
        simp [standardize] at hz
      obtain ⟨h1, h2⟩ := fcorrZ_max hR hn h
      refine ⟨approx R z, approx R w, ?_, ?_, h1, h2⟩
      · rw [← standardize_eq hz]; exact approx_near hR hn z
      · rw [← standardize_eq hw]; exact approx_near hR hn w

/-- Up to 1000 observations: the largest regularised correlation for matrices close to the centred Gram matrices. -/
theorem C147_value {R : Routines} (hR : Exact R) (hsmall : n ≤ 1000) {x y : Fin n → ℝ} {v : ℝ} (h : fcorr R x y = some v) :
    ∃ K L, NearGram 1 (n / 2500) (zscore x) K ∧ NearGram 1 (n / 2500) (zscore y) L ∧ IsMaxRegCorr (n / 100) K L v := by
  obtain ⟨K, L, h1, h2, h3, -⟩ := value hR h
  have e : params n = (2 / 100, 1) := by unfold params; rw [if_neg (by omega)]
  rw [e] at h1 h2 h3
  refine ⟨K, L, ?_, ?_, ?_⟩
  · convert h1 using 1; ring
  · convert h2 using 1; ring
  · convert h3 using 1; ring

/-- More than 1000 observations. -/
theorem C147_value_large {R : Routines} (hR : Exact R) (hlarge : 1000 < n) {x y : Fin n → ℝ} {v : ℝ} (h : fcorr R x y = some v) :
    ∃ K L, NearGram (1 / 2) (n / 25000) (zscore x) K ∧ NearGram (1 / 2) (n / 25000) (zscore y) L ∧ IsMaxRegCorr (n / 1000) K L v := by
  obtain ⟨K, L, h1, h2, h3, -⟩ := value hR h
  have e : params n = (2 / 1000, 1 / 2) := by unfold params; rw [if_pos hlarge]
  rw [e] at h1 h2 h3
  refine ⟨K, L, ?_, ?_, ?_⟩
  · convert h1 using 1; ring
  · convert h2 using 1; ring
  · convert h3 using 1; ring

/-- The value is at least zero and below one. -/
theorem C147_range {R : Routines} (hR : Exact R) {x y : Fin n → ℝ} {v : ℝ} (h : fcorr R x y = some v) : 0 ≤ v ∧ v < 1 := by
  obtain ⟨-, -, -, -, -, h4⟩ := value hR h
  exact h4

/-! ### C148 -/

/-- One column is accepted, as a vector or as a matrix. -/
theorem C148_one_column_partial (n : Nat) : firstColumn n [] = true ∧ firstColumn n [1] = true := firstColumn_one n

/-- Two or more columns are never accepted. -/
theorem C148_columns_violated (n k : Nat) (hk : 2 ≤ k) : firstColumn n [k] = false := firstColumn_many n k hk

/-- CAM-UV passes several columns for every set of three or more variables. -/
theorem C148_camuv_violated (n : Nat) (V : List Nat) (hV : V.Nodup) (h3 : 3 ≤ V.length) (child : Nat) :
    firstColumn n [(Camuv.rest V child).length] = false := by
  refine firstColumn_many n _ ?_
  unfold Camuv.rest
  have h1 : (V.filter (fun x => decide (x ≠ child))).length + (V.filter (fun x => decide (x = child))).length = V.length := by
    have h := List.length_eq_length_filter_add (l := V) (fun x => decide (x = child))
    have e : (fun x => !decide (x = child)) = fun x => decide (x ≠ child) := by funext x; simp
    rw [e] at h
    omega
  have h2 : (V.filter (fun x => decide (x = child))).length ≤ 1 := by
    have h := List.nodup_iff_count_le_one.1 hV child
    rw [List.count_eq_length_filter] at h
    refine le_trans (le_of_eq ?_) h
    congr 2
  omega

/-! ### Cases -/

/-- The hypotheses on the routines can be met, and then there are values. -/
example : ∃ R v, Exact R ∧ fcorr (n := 2) R ![0, 1] ![1, 3] = some v ∧ fcorr R (fun r => -3 * ![0, 1] r + 2) ![1, 3] = some v := by
  obtain ⟨R, hR⟩ := exact_exists
  obtain ⟨v, hv⟩ := C146_returns_partial hR (n := 2) (by norm_num) ![0, 1] ![1, 3] ⟨0, 1, by simp⟩ ⟨0, 1, by norm_num⟩
  refine ⟨R, v, hR, hv, ?_⟩
  have := C145_units R (n := 2) two_ne_zero ![0, 1] ![1, 3] (a := -3) (a' := 1) (by norm_num) one_ne_zero 2 0
  simp only [one_mul, add_zero] at this
  rw [← hv]
  exact this

/-- A value for three observations lies in the range and is symmetric. -/
example : ∃ R v, Exact R ∧ fcorr (n := 3) R ![0, 1, 5] ![1, 3, 2] = some v ∧ fcorr R ![1, 3, 2] ![0, 1, 5] = some v ∧ 0 ≤ v ∧ v < 1 := by
  obtain ⟨R, hR⟩ := exact_exists
  obtain ⟨v, hv⟩ := C146_returns_partial hR (n := 3) (by norm_num) ![0, 1, 5] ![1, 3, 2] ⟨0, 1, by simp⟩ ⟨0, 1, by norm_num⟩
  exact ⟨R, v, hR, hv, (C145_symmetric hR three_ne_zero _ _).symm.trans hv, C147_range hR hv⟩

/-- A rare event among 100000 observations, against itself: an exception, although the sample is not constant. -/
example : ∃ R, Exact R ∧ fcorr (n := 100000) R (fun r => if r = ⟨0, by norm_num⟩ then 1 else 0) (fun r => if r = ⟨0, by norm_num⟩ then 1 else 0) = none := by
  obtain ⟨R, hR⟩ := exact_exists
  exact ⟨R, hR, C146_returns_violated hR le_rfl _ _ ⟨0, by norm_num⟩ ⟨0, by norm_num⟩ 1 0 1 0 (fun _ => rfl) (fun _ => rfl)⟩

/-- The test of variable 0 against the pair 1, 2 in CAM-UV. -/
example : firstColumn 100 [(Camuv.rest [0, 1, 2] 0).length] = false := C148_camuv_violated 100 [0, 1, 2] (by decide) (by decide) 0

end Verif.FCorr
