import Verif.Props.Pairwise
import Verif.Spec.Independent

/-! C229: `DirectLiNGAM` with the default measure on two variables whose errors are exactly independent. -/
set_option autoImplicit false
set_option linter.unusedSectionVars false
namespace Verif.Pairwise

variable {N : Nat}

/-! ### Estimates of `cosh` and `exp` -/

theorem cosh_ge_sum (k : Nat) (x : ℝ) : ∑ n ∈ Finset.range k, x ^ (2 * n) / (2 * n).factorial ≤ Real.cosh x :=
  sum_le_hasSum _ (fun i _ => by rw [pow_mul]; positivity) (Real.hasSum_cosh x)

theorem cosh_ge_three (x : ℝ) : 1 + x ^ 2 / 2 + x ^ 4 / 24 ≤ Real.cosh x := by
  have h := cosh_ge_sum 3 x
  simp [Finset.sum_range_succ, Nat.factorial] at h
  linarith

theorem cosh_ge_six (x : ℝ) :
    1 + x ^ 2 / 2 + x ^ 4 / 24 + x ^ 6 / 720 + x ^ 8 / 40320 + x ^ 10 / 3628800 ≤ Real.cosh x := by
  have h := cosh_ge_sum 6 x
  simp [Finset.sum_range_succ, Nat.factorial] at h
  linarith

theorem cosh_pair_lt {a b : ℝ} (h : a ^ 2 + b ^ 2 = 4) (ha : a ≠ 0) (hb : b ≠ 0) :
    Real.cosh a + Real.cosh b < Real.cosh 2 + 1 := by
  have h0 := Real.hasSum_cosh 0
  rw [Real.cosh_zero] at h0
  have pa : 0 < a ^ 2 := by positivity
  have pb : 0 < b ^ 2 := by positivity
  have key : ∀ n : Nat, (a ^ 2) ^ n + (b ^ 2) ^ n ≤ 4 ^ n + 0 ^ n := by
    intro n
    rcases Nat.eq_zero_or_pos n with rfl | hn
    · norm_num
    · rw [zero_pow (by omega), add_zero, ← h]
      exact pow_add_pow_le pa.le pb.le (by omega)
  refine hasSum_lt (i := 2) (fun n => ?_) ?_ ((Real.hasSum_cosh a).add (Real.hasSum_cosh b)) ((Real.hasSum_cosh 2).add h0)
  · have := key n
    beta_reduce
    rw [← add_div, ← add_div, pow_mul, pow_mul, pow_mul 2, pow_mul 0]
    have z : ((0 : ℝ) ^ 2) = 0 := by norm_num
    have f : ((2 : ℝ) ^ 2) = 4 := by norm_num
    rw [z, f]
    exact div_le_div_of_nonneg_right this (by positivity)
  · rw [← add_div, ← add_div]
    refine div_lt_div_of_pos_right ?_ (by positivity)
    have : a ^ 4 + b ^ 4 = 16 - 2 * (a ^ 2 * b ^ 2) := by
      have : (a ^ 2 + b ^ 2) ^ 2 = 16 := by rw [h]; norm_num
      linarith [show (a ^ 2 + b ^ 2) ^ 2 = a ^ 4 + b ^ 4 + 2 * (a ^ 2 * b ^ 2) by ring]
    have := mul_pos pa pb
    norm_num
    linarith

theorem exp_gamma_lt : Real.exp (2 * 0.37457) < 2.16 := by
  have h := Real.exp_bound' (x := 2 * 0.37457) (by norm_num) (by norm_num) (n := 5) (by norm_num)
  refine lt_of_le_of_lt h ?_
  norm_num [Finset.sum_range_succ, Nat.factorial]

/-! ### Two coins -/

/-- A mean over two independent fair coins. -/
theorem sum_coins {s t : Fin N → ℝ} (hs : ∀ r, s r = 1 ∨ s r = -1) (ht : ∀ r, t r = 1 ∨ t r = -1) (s0 : ∑ r, s r = 0)
    (t0 : ∑ r, t r = 0) (st : ∑ r, s r * t r = 0) (F : ℝ → ℝ → ℝ) :
    ∑ r, F (s r) (t r) = N * ((F 1 1 + F 1 (-1) + F (-1) 1 + F (-1) (-1)) / 4) := by
  have key : ∀ r, F (s r) (t r) = (F 1 1 + F 1 (-1) + F (-1) 1 + F (-1) (-1)) / 4 + (F 1 1 + F 1 (-1) - F (-1) 1 - F (-1) (-1)) / 4 * s r +
      (F 1 1 - F 1 (-1) + F (-1) 1 - F (-1) (-1)) / 4 * t r + (F 1 1 - F 1 (-1) - F (-1) 1 + F (-1) (-1)) / 4 * (s r * t r) := by
    intro r
    rcases hs r with h | h <;> rcases ht r with h' | h' <;> rw [h, h'] <;> ring
  rw [Finset.sum_congr rfl (fun r _ => key r)]
  simp only [Finset.sum_add_distrib, ← Finset.mul_sum, s0, t0, st]
  simp

theorem coins_entropy (hN : N ≠ 0) {s t : Fin N → ℝ} (hs : ∀ r, s r = 1 ∨ s r = -1) (ht : ∀ r, t r = 1 ∨ t r = -1)
    (s0 : ∑ r, s r = 0) (t0 : ∑ r, t r = 0) (st : ∑ r, s r * t r = 0) (a b : ℝ) :
    approxEntropy (fun r => a * s r + b * t r) = (1 + Real.log (2 * Real.pi)) / 2 -
      79.047 * ((Real.log (Real.cosh (a + b)) + Real.log (Real.cosh (a - b))) / 2 - 0.37457) ^ 2 := by
  have hN' : (N : ℝ) ≠ 0 := by exact_mod_cast hN
  unfold approxEntropy
  rw [sum_coins hs ht s0 t0 st (fun x y => Real.log (Real.cosh (a * x + b * y))),
    sum_coins hs ht s0 t0 st (fun x y => (a * x + b * y) * Real.exp (-(a * x + b * y) ^ 2 / 2)),
    mul_div_cancel_left₀ _ hN', mul_div_cancel_left₀ _ hN']
  have e1 : a * -1 + b * 1 = -(a - b) := by ring
  have e2 : a * -1 + b * -1 = -(a + b) := by ring
  have e3 : a * 1 + b * -1 = a - b := by ring
  rw [e1, e2, e3, mul_one, mul_one, Real.cosh_neg, Real.cosh_neg]
  have e4 : (-(a - b)) ^ 2 = (a - b) ^ 2 := by ring
  have e5 : (-(a + b)) ^ 2 = (a + b) ^ 2 := by ring
  rw [e4, e5]
  ring

theorem coins_score (hN : N ≠ 0) {s t : Fin N → ℝ} (hs : ∀ r, s r = 1 ∨ s r = -1) (ht : ∀ r, t r = 1 ∨ t r = -1)
    (s0 : ∑ r, s r = 0) (t0 : ∑ r, t r = 0) (st : ∑ r, s r * t r = 0) {β : ℝ} (hβ : β ≠ 0) :
    0 < directionScore (β / √(1 + β ^ 2)) s (fun r => β / √(1 + β ^ 2) * s r + 1 / √(1 + β ^ 2) * t r) := by
  have hq : 0 < 1 + β ^ 2 := by positivity
  obtain ⟨q, hqd⟩ : ∃ q, q = √(1 + β ^ 2) := ⟨_, rfl⟩
  have q0 : 0 < q := by rw [hqd]; positivity
  have qq : q ^ 2 = 1 + β ^ 2 := by rw [hqd]; exact Real.sq_sqrt hq.le
  rw [← hqd]
  have hr : √(1 - (β / q) ^ 2) = 1 / q := by
    rw [show 1 - (β / q) ^ 2 = (1 / q) ^ 2 by field_simp; linarith]
    exact Real.sqrt_sq (by positivity)
  unfold directionScore
  rw [hr]
  have r1 : (fun r => (s r - β / q * (β / q * s r + 1 / q * t r)) / (1 / q)) = fun r => (1 / q) * s r + (-(β / q)) * t r := by
    funext r
    field_simp
    rw [qq]
    ring
  have r2 : (fun r => (β / q * s r + 1 / q * t r - β / q * s r) / (1 / q)) = fun r => 0 * s r + 1 * t r := by
    funext r
    field_simp
    ring
  have r3 : s = fun r => 1 * s r + 0 * t r := by
    funext r
    ring
  rw [r1, r2]
  have eS : approxEntropy s = approxEntropy (fun r => 1 * s r + 0 * t r) := by rw [← r3]
  rw [eS, coins_entropy hN hs ht s0 t0 st, coins_entropy hN hs ht s0 t0 st, coins_entropy hN hs ht s0 t0 st, coins_entropy hN hs ht s0 t0 st]
  rw [show (1 : ℝ) / q + -(β / q) = -(β / q - 1 / q) by ring, show (1 : ℝ) / q - -(β / q) = β / q + 1 / q by ring, Real.cosh_neg,
    show (0 : ℝ) - 1 = -1 by ring, Real.cosh_neg, add_zero, sub_zero, zero_add]
  have hsum : (β / q + 1 / q + (β / q - 1 / q)) ^ 2 + (β / q + 1 / q - (β / q - 1 / q)) ^ 2 = 4 := by
    field_simp
    rw [qq]
    ring
  have n1 : β / q + 1 / q + (β / q - 1 / q) ≠ 0 := by
    rw [show β / q + 1 / q + (β / q - 1 / q) = 2 * β / q by ring]
    positivity
  have n2 : β / q + 1 / q - (β / q - 1 / q) ≠ 0 := by
    rw [show β / q + 1 / q - (β / q - 1 / q) = 2 / q by ring]
    positivity
  generalize β / q + 1 / q = u at hsum n1 n2 ⊢
  generalize β / q - 1 / q = v at hsum n1 n2 ⊢
  have prod : Real.cosh u * Real.cosh v = (Real.cosh (u + v) + Real.cosh (u - v)) / 2 := by
    rw [Real.cosh_add, Real.cosh_sub]
    ring
  have sq1 : Real.cosh 1 * Real.cosh 1 = (Real.cosh 2 + 1) / 2 := by
    have h := Real.cosh_add 1 1
    rw [show (1 : ℝ) + 1 = 2 by norm_num] at h
    have h2 := Real.cosh_sq 1
    nlinarith
  have cu := Real.cosh_pos u
  have cv := Real.cosh_pos v
  have c1 := Real.cosh_pos 1
  have up : Real.log (Real.cosh u) + Real.log (Real.cosh v) < Real.log (Real.cosh 1) + Real.log (Real.cosh 1) := by
    rw [← Real.log_mul cu.ne' cv.ne', ← Real.log_mul c1.ne' c1.ne', prod, sq1]
    refine Real.log_lt_log (by positivity) ?_
    have := cosh_pair_lt hsum n1 n2
    linarith
  have low : 2 * 0.37457 < Real.log (Real.cosh u) + Real.log (Real.cosh v) := by
    rw [← Real.log_mul cu.ne' cv.ne', prod, Real.lt_log_iff_exp_lt (by positivity)]
    refine lt_of_lt_of_le exp_gamma_lt ?_
    have h1 := cosh_ge_three (u + v)
    have h2 := cosh_ge_three (u - v)
    have : 8 ≤ (u + v) ^ 4 + (u - v) ^ 4 := by nlinarith [sq_nonneg ((u + v) ^ 2 - (u - v) ^ 2)]
    norm_num
    linarith
  generalize Real.log (Real.cosh u) = a at up low ⊢
  generalize Real.log (Real.cosh v) = b at up low ⊢
  generalize Real.log (Real.cosh 1) = c at up ⊢
  have := mul_pos (sub_pos.2 up) (show 0 < (c + c) + (a + b) - 4 * 0.37457 by linarith)
  nlinarith

/-- Two exactly independent fair coins, as signs. -/
theorem coins_of_independent (hN : N ≠ 0) {x e : Fin N → ℝ} (hx : FairCoin x) (he : FairCoin e) (hi : SampleIndependent x e) :
    ∃ (m d k c : ℝ) (s t : Fin N → ℝ), d ≠ 0 ∧ c ≠ 0 ∧ (∀ r, x r = d * s r + m) ∧ (∀ r, e r = c * t r + k) ∧
      (∀ r, s r = 1 ∨ s r = -1) ∧ (∀ r, t r = 1 ∨ t r = -1) ∧ ∑ r, s r = 0 ∧ ∑ r, t r = 0 ∧ ∑ r, s r * t r = 0 := by
  obtain ⟨m, d, hd, xv, xs⟩ := hx
  obtain ⟨k, c, hc, ev, es⟩ := he
  have hN' : (N : ℝ) ≠ 0 := by exact_mod_cast hN
  have sx : ∑ r, (x r - m) / d = 0 := by
    rw [← Finset.sum_div, Finset.sum_sub_distrib, xs]
    simp
  have se : ∑ r, (e r - k) / c = 0 := by
    rw [← Finset.sum_div, Finset.sum_sub_distrib, es]
    simp
  refine ⟨m, d, k, c, fun r => (x r - m) / d, fun r => (e r - k) / c, hd, hc, fun r => ?_, fun r => ?_, fun r => ?_, fun r => ?_, sx, se, ?_⟩
  · field_simp
    ring
  · field_simp
    ring
  · rcases xv r with h | h
    · left; beta_reduce; rw [h]; field_simp; ring
    · right; beta_reduce; rw [h]; field_simp; ring
  · rcases ev r with h | h
    · left; beta_reduce; rw [h]; field_simp; ring
    · right; beta_reduce; rw [h]; field_simp; ring
  · have h := hi (fun v => (v - m) / d) (fun v => (v - k) / c)
    beta_reduce at h
    rw [sx, zero_mul] at h
    rcases mul_eq_zero.1 h with h | h
    · exact absurd h hN'
    · exact h

theorem standard_of_sign {s : Fin N → ℝ} (hs : ∀ r, s r = 1 ∨ s r = -1) (s0 : ∑ r, s r = 0) : IsStandard s := by
  refine ⟨s0, ?_⟩
  rw [Finset.sum_congr rfl (fun r _ => show s r ^ 2 = 1 by rcases hs r with h | h <;> rw [h] <;> norm_num)]
  simp

theorem coins_standard {s t : Fin N → ℝ} (hs : ∀ r, s r = 1 ∨ s r = -1) (ht : ∀ r, t r = 1 ∨ t r = -1) (s0 : ∑ r, s r = 0)
    (t0 : ∑ r, t r = 0) (st : ∑ r, s r * t r = 0) (β : ℝ) :
    IsStandard (fun r => β / √(1 + β ^ 2) * s r + 1 / √(1 + β ^ 2) * t r) ∧
      N * (β / √(1 + β ^ 2)) = ∑ r, s r * (β / √(1 + β ^ 2) * s r + 1 / √(1 + β ^ 2) * t r) := by
  have hq : 0 < 1 + β ^ 2 := by positivity
  obtain ⟨q, hqd⟩ : ∃ q, q = √(1 + β ^ 2) := ⟨_, rfl⟩
  have q0 : 0 < q := by rw [hqd]; positivity
  have qq : q ^ 2 = 1 + β ^ 2 := by rw [hqd]; exact Real.sq_sqrt hq.le
  rw [← hqd]
  refine ⟨⟨?_, ?_⟩, ?_⟩
  · rw [sum_coins hs ht s0 t0 st (fun x y => β / q * x + 1 / q * y)]
    ring
  · rw [sum_coins hs ht s0 t0 st (fun x y => (β / q * x + 1 / q * y) ^ 2)]
    field_simp
    rw [qq]
    ring
  · rw [sum_coins hs ht s0 t0 st (fun x y => x * (β / q * x + 1 / q * y))]
    ring

/-- A fair coin that causes a variable whose error is another, exactly independent fair coin comes first, whatever the
effect, the values and the order of the columns. -/
theorem C229_coins_partial {cfg : Direct.Config} (hpk : cfg.pk = none) (hN : N ≠ 0) {x e : Fin N → ℝ} (hx : FairCoin x) (he : FairCoin e)
    (hi : SampleIndependent x e) {b : ℝ} (hb : b ≠ 0) :
    fitOrder cfg 2 (fun j r => if j = 0 then x r else b * x r + e r) = .ok [0, 1] ∧
      fitOrder cfg 2 (fun j r => if j = 0 then b * x r + e r else x r) = .ok [1, 0] := by
  obtain ⟨m, d, k, c, s, t, hd, hc, xe, ee, hs, ht, s0, t0, st⟩ := coins_of_independent hN hx he hi
  have hβ : b * d / c ≠ 0 := by positivity
  have hsc := coins_score hN hs ht s0 t0 st hβ
  obtain ⟨hw, hρ⟩ := coins_standard hs ht s0 t0 st (b * d / c)
  have zs := standard_of_sign hs s0
  have hq : 0 < 1 + (b * d / c) ^ 2 := by positivity
  have hlt : (b * d / c / √(1 + (b * d / c) ^ 2)) ^ 2 < 1 := by
    rw [div_pow, Real.sq_sqrt hq.le, div_lt_one hq]
    linarith
  have ye : ∀ r, b * x r + e r = (c * √(1 + (b * d / c) ^ 2)) *
      (b * d / c / √(1 + (b * d / c) ^ 2) * s r + 1 / √(1 + (b * d / c) ^ 2) * t r) + (b * m + k) := by
    intro r
    rw [xe, ee]
    have : √(1 + (b * d / c) ^ 2) ≠ 0 := by positivity
    generalize √(1 + (b * d / c) ^ 2) = q at this
    field_simp
    ring
  have hcq : c * √(1 + (b * d / c) ^ 2) ≠ 0 := by positivity
  constructor
  · rw [C143_pair hpk hN (X := fun j r => if j = 0 then x r else b * x r + e r) (m := m) (k := b * m + k) zs hw hd hcq (fun r => by simp [xe]) (fun r => by simp [ye]) hρ hlt,
      if_pos hsc.le]
  · rw [C143_pair hpk hN (X := fun j r => if j = 0 then b * x r + e r else x r) (m := b * m + k) (k := m) hw zs hcq hd (fun r => by simp [ye]) (fun r => by simp [xe])
      (hρ.trans (Finset.sum_congr rfl fun r _ => mul_comm _ _)) hlt, if_neg]
    have : directionScore (b * d / c / √(1 + (b * d / c) ^ 2)) (fun r => b * d / c / √(1 + (b * d / c) ^ 2) * s r + 1 / √(1 + (b * d / c) ^ 2) * t r) s =
        -directionScore (b * d / c / √(1 + (b * d / c) ^ 2)) s (fun r => b * d / c / √(1 + (b * d / c) ^ 2) * s r + 1 / √(1 + (b * d / c) ^ 2) * t r) := by
      unfold directionScore
      ring
    rw [this]
    linarith

/-! ### A data set on which the default measure is wrong -/

/-- Five values with a short and a long distance from zero. -/
noncomputable def fiveV : Fin 5 → ℝ := ![-8, -1, 0, 1, 8]

/-- The cause: every value in five rows. -/
noncomputable def wrongX : Fin 25 → ℝ := fun r => fiveV ((finProdFinEquiv (m := 5) (n := 5)).symm r).1

/-- The error: every value once beside every value of the cause. -/
noncomputable def wrongE : Fin 25 → ℝ := fun r => fiveV ((finProdFinEquiv (m := 5) (n := 5)).symm r).2

theorem sum_wrong (F : ℝ → ℝ → ℝ) : ∑ r, F (wrongX r) (wrongE r) = ∑ i, ∑ j, F (fiveV i) (fiveV j) := by
  rw [← Fintype.sum_prod_type' (fun i j => F (fiveV i) (fiveV j))]
  exact Equiv.sum_comp (finProdFinEquiv (m := 5) (n := 5)).symm (fun q => F (fiveV q.1) (fiveV q.2))

theorem wrong_independent : SampleIndependent wrongX wrongE := by
  intro f g
  rw [sum_wrong (fun x e => f x * g e), sum_wrong (fun x _ => f x), sum_wrong (fun _ e => g e)]
  simp only [← Finset.mul_sum, ← Finset.sum_mul, Finset.sum_const, Finset.card_univ, Fintype.card_fin, nsmul_eq_mul]
  push_cast
  ring

theorem fiveV_rev (i : Fin 5) : fiveV (Fin.rev i) = -fiveV i := by
  fin_cases i <;> simp [fiveV, Fin.rev]

theorem sum_odd {F : ℝ → ℝ → ℝ} (h : ∀ x e, F (-x) (-e) = -F x e) : ∑ r, F (wrongX r) (wrongE r) = 0 := by
  have h1 : ∑ i, ∑ j, F (fiveV i) (fiveV j) = ∑ i, ∑ j, F (fiveV (Fin.rev i)) (fiveV (Fin.rev j)) := by
    rw [← Equiv.sum_comp Fin.revPerm (fun i => ∑ j, F (fiveV i) (fiveV j))]
    refine Finset.sum_congr rfl fun i _ => ?_
    rw [← Equiv.sum_comp Fin.revPerm (fun j => F (fiveV (Fin.revPerm i)) (fiveV j))]
    rfl
  rw [sum_wrong]
  simp only [fiveV_rev, h, Finset.sum_neg_distrib] at h1
  linarith

/-- A sum of an even function that vanishes at zero. -/
theorem sum_even_mix {L : ℝ → ℝ} (h : ∀ x, L (-x) = L x) (h0 : L 0 = 0) :
    ∑ r, L (3 * wrongX r + 4 * wrongE r) = 2 * (L 3 + L 4 + L 24 + L 32 + L 7 + L 1 + L 56 + L 8 + L 35 + L 29 + L 28 + L 20) ∧
      ∑ r, L (4 * wrongX r - 3 * wrongE r) = 2 * (L 3 + L 4 + L 24 + L 32 + L 7 + L 1 + L 56 + L 8 + L 35 + L 29 + L 28 + L 20) ∧
      ∑ r, L (wrongX r) = 10 * (L 8 + L 1) ∧ ∑ r, L (wrongE r) = 10 * (L 8 + L 1) := by
  have e3 := h 3; have e4 := h 4; have e24 := h 24; have e32 := h 32; have e7 := h 7; have e1 := h 1; have e56 := h 56
  have e8 := h 8; have e35 := h 35; have e29 := h 29; have e28 := h 28; have e20 := h 20
  refine ⟨?_, ?_, ?_, ?_⟩
  · rw [sum_wrong (fun x e => L (3 * x + 4 * e))]
    simp [Fin.sum_univ_five, fiveV]
    norm_num
    simp only [e3, e4, e24, e32, e7, e1, e56, e8, e35, e29, e28, e20, h0]
    ring
  · rw [sum_wrong (fun x e => L (4 * x - 3 * e))]
    simp [Fin.sum_univ_five, fiveV]
    norm_num
    simp only [e3, e4, e24, e32, e7, e1, e56, e8, e35, e29, e28, e20, h0]
    ring
  · rw [sum_wrong (fun x _ => L x)]
    simp [Fin.sum_univ_five, fiveV]
    simp only [e1, e8, h0]
    ring
  · rw [sum_wrong (fun _ e => L e)]
    simp [Fin.sum_univ_five, fiveV]
    simp only [e1, e8, h0]
    ring

theorem log_cosh_even (q : ℝ) (x : ℝ) : Real.log (Real.cosh (-x / q)) = Real.log (Real.cosh (x / q)) := by
  rw [neg_div, Real.cosh_neg]

theorem mix_entropy {u : Fin 25 → ℝ} {a b q : ℝ} (hu : ∀ r, u r = (a * wrongX r + b * wrongE r) / q) :
    approxEntropy u = (1 + Real.log (2 * Real.pi)) / 2 -
      79.047 * ((∑ r, Real.log (Real.cosh ((a * wrongX r + b * wrongE r) / q))) / 25 - 0.37457) ^ 2 := by
  have hu' : u = fun r => (a * wrongX r + b * wrongE r) / q := funext hu
  subst hu'
  unfold approxEntropy
  rw [sum_odd (F := fun x e => (a * x + b * e) / q * Real.exp (-((a * x + b * e) / q) ^ 2 / 2))]
  · push_cast
    ring
  · intro x e
    have : (a * -x + b * -e) / q = -((a * x + b * e) / q) := by ring
    rw [this, neg_sq]
    ring

theorem root_sq : (√26) ^ 2 = 26 := Real.sq_sqrt (by norm_num)

theorem narrow_bounds :
    2.545 ≤ Real.cosh (8 / √26) * Real.cosh (1 / √26) ∧ Real.cosh (8 / √26) * Real.cosh (1 / √26) ≤ 2.561 := by
  have h26 := root_sq
  have pos : 0 < √26 := by positivity
  constructor
  · have h1 := cosh_ge_six (8 / √26)
    have h2 := cosh_ge_three (1 / √26)
    have p2 : (√26) ^ 2 = 26 := h26
    have p4 : (√26) ^ 4 = 26 ^ 2 := by rw [show 4 = 2 * 2 by norm_num, pow_mul, h26]
    have p6 : (√26) ^ 6 = 26 ^ 3 := by rw [show 6 = 2 * 3 by norm_num, pow_mul, h26]
    have p8 : (√26) ^ 8 = 26 ^ 4 := by rw [show 8 = 2 * 4 by norm_num, pow_mul, h26]
    have p10 : (√26) ^ 10 = 26 ^ 5 := by rw [show 10 = 2 * 5 by norm_num, pow_mul, h26]
    simp only [div_pow, p2, p4, p6, p8, p10] at h1 h2
    refine le_trans ?_ (mul_le_mul h1 h2 (by norm_num) (Real.cosh_pos _).le)
    norm_num
  · have lo : 5.0990 ≤ √26 := by
      rw [Real.le_sqrt' (by norm_num)]
      norm_num
    have hA : Real.cosh (8 / √26) ≤ Real.cosh 1.569 := by
      rw [Real.cosh_le_cosh, abs_of_nonneg (by positivity), abs_of_nonneg (by norm_num), div_le_iff₀ pos]
      nlinarith
    have hC : Real.cosh (1 / √26) ≤ Real.cosh 0.1962 := by
      rw [Real.cosh_le_cosh, abs_of_nonneg (by positivity), abs_of_nonneg (by norm_num), div_le_iff₀ pos]
      nlinarith
    have x1 : Real.exp 0.7845 ≤ 2.19132 := by
      refine le_trans (Real.exp_bound' (by norm_num) (by norm_num) (n := 8) (by norm_num)) ?_
      norm_num [Finset.sum_range_succ, Nat.factorial]
    have x2 : 2.191 ≤ Real.exp 0.7845 := by
      refine le_trans ?_ (Real.sum_le_exp_of_nonneg (by norm_num) 7)
      norm_num [Finset.sum_range_succ, Nat.factorial]
    have x3 : Real.exp 0.1962 ≤ 1.21678 := by
      refine le_trans (Real.exp_bound' (by norm_num) (by norm_num) (n := 5) (by norm_num)) ?_
      norm_num [Finset.sum_range_succ, Nat.factorial]
    have x4 : 1.2167 ≤ Real.exp 0.1962 := by
      refine le_trans ?_ (Real.sum_le_exp_of_nonneg (by norm_num) 5)
      norm_num [Finset.sum_range_succ, Nat.factorial]
    have y1 : Real.cosh 1.569 ≤ 2.5053 := by
      rw [Real.cosh_eq, Real.exp_neg, show (1.569 : ℝ) = 0.7845 + 0.7845 by norm_num, Real.exp_add]
      have p : 0 < Real.exp 0.7845 := Real.exp_pos _
      have i1 : (Real.exp 0.7845 * Real.exp 0.7845)⁻¹ ≤ (2.191 * 2.191)⁻¹ :=
        inv_anti₀ (by norm_num) (mul_le_mul x2 x2 (by norm_num) p.le)
      have i2 : Real.exp 0.7845 * Real.exp 0.7845 ≤ 2.19132 * 2.19132 := mul_le_mul x1 x1 p.le (by norm_num)
      have : ((2.191 : ℝ) * 2.191)⁻¹ ≤ 0.20832 := by norm_num
      norm_num at *
      linarith
    have y2 : Real.cosh 0.1962 ≤ 1.0195 := by
      rw [Real.cosh_eq, Real.exp_neg]
      have i1 : (Real.exp 0.1962)⁻¹ ≤ (1.2167)⁻¹ := inv_anti₀ (by norm_num) x4
      have : ((1.2167 : ℝ))⁻¹ ≤ 0.8219 := by norm_num
      norm_num at *
      linarith
    refine le_trans (mul_le_mul (hA.trans y1) (hC.trans y2) (Real.cosh_pos _).le (by norm_num)) ?_
    norm_num

theorem wide_bound (a : ℝ) :
    1 + a ^ 2 / 650 / 2 + a ^ 4 / 650 ^ 2 / 24 + a ^ 6 / 650 ^ 3 / 720 + a ^ 8 / 650 ^ 4 / 40320 + a ^ 10 / 650 ^ 5 / 3628800 ≤ Real.cosh (a / (5 * √26)) := by
  have h := cosh_ge_six (a / (5 * √26))
  have p2 : (5 * √26) ^ 2 = 650 := by rw [mul_pow, root_sq]; norm_num
  have p4 : (5 * √26) ^ 4 = 650 ^ 2 := by rw [← p2]; ring
  have p6 : (5 * √26) ^ 6 = 650 ^ 3 := by rw [← p2]; ring
  have p8 : (5 * √26) ^ 8 = 650 ^ 4 := by rw [← p2]; ring
  have p10 : (5 * √26) ^ 10 = 650 ^ 5 := by rw [← p2]; ring
  simpa only [div_pow, p2, p4, p6, p8, p10] using h

theorem wide_product : 111 ≤ Real.cosh (3 / (5 * √26)) * Real.cosh (4 / (5 * √26)) * Real.cosh (24 / (5 * √26)) * Real.cosh (32 / (5 * √26)) *
    Real.cosh (7 / (5 * √26)) * Real.cosh (1 / (5 * √26)) * Real.cosh (56 / (5 * √26)) * Real.cosh (8 / (5 * √26)) * Real.cosh (35 / (5 * √26)) *
    Real.cosh (29 / (5 * √26)) * Real.cosh (28 / (5 * √26)) * Real.cosh (20 / (5 * √26)) := by
  have h := wide_bound
  have pos : ∀ a : ℝ, 0 ≤ Real.cosh (a / (5 * √26)) := fun a => (Real.cosh_pos _).le
  have step : ∀ {P p : ℝ} (a : ℝ) {q : ℝ}, 0 ≤ p → p ≤ P → 0 ≤ q → q ≤ 1 + a ^ 2 / 650 / 2 + a ^ 4 / 650 ^ 2 / 24 + a ^ 6 / 650 ^ 3 / 720 +
      a ^ 8 / 650 ^ 4 / 40320 + a ^ 10 / 650 ^ 5 / 3628800 → p * q ≤ P * Real.cosh (a / (5 * √26)) :=
    fun a _ hp hP hq hQ => mul_le_mul hP (hQ.trans (h a)) hq (hp.trans hP)
  refine le_trans ?_ (step 20 (q := 1.3237) (by norm_num) (step 28 (q := 1.6661) (by norm_num) (step 29 (q := 1.7197) (by norm_num)
    (step 35 (q := 2.0999) (by norm_num) (step 8 (q := 1.0496) (by norm_num) (step 56 (q := 4.5523) (by norm_num) (step 1 (q := 1.0007) (by norm_num)
    (step 7 (q := 1.0379) (by norm_num) (step 32 (q := 1.8966) (by norm_num) (step 24 (q := 1.4767) (by norm_num) (step 4 (q := 1.0123) (by norm_num)
    ((show (1.0069 : ℝ) ≤ _ by norm_num).trans (h 3)) ?_ ?_) ?_ ?_) ?_ ?_) ?_ ?_) ?_ ?_) ?_ ?_) ?_ ?_) ?_ ?_) ?_ ?_) ?_ ?_) ?_ ?_)
  all_goals norm_num

theorem wrong_score : directionScore (3 / 5) (fun r => wrongX r / √26) (fun r => (3 * wrongX r + 4 * wrongE r) / (5 * √26)) < 0 := by
  have pos : 0 < √26 := by positivity
  have hr : √(1 - (3 / 5 : ℝ) ^ 2) = 4 / 5 := by
    rw [show (1 : ℝ) - (3 / 5) ^ 2 = (4 / 5) ^ 2 by norm_num]
    exact Real.sqrt_sq (by norm_num)
  unfold directionScore
  rw [hr]
  rw [mix_entropy (u := fun r => (3 * wrongX r + 4 * wrongE r) / (5 * √26)) (a := 3) (b := 4) (q := 5 * √26) (fun r => rfl),
    mix_entropy (u := fun r => wrongX r / √26) (a := 1) (b := 0) (q := √26) (fun r => by ring),
    mix_entropy (u := fun r => ((3 * wrongX r + 4 * wrongE r) / (5 * √26) - 3 / 5 * (wrongX r / √26)) / (4 / 5)) (a := 0) (b := 1) (q := √26)
      (fun r => by field_simp; ring),
    mix_entropy (u := fun r => (wrongX r / √26 - 3 / 5 * ((3 * wrongX r + 4 * wrongE r) / (5 * √26))) / (4 / 5)) (a := 4) (b := -3) (q := 5 * √26)
      (fun r => by field_simp; ring)]
  have L5 := sum_even_mix (L := fun x => Real.log (Real.cosh (x / (5 * √26)))) (log_cosh_even _) (by simp)
  have L1 := sum_even_mix (L := fun x => Real.log (Real.cosh (x / √26))) (log_cosh_even _) (by simp)
  beta_reduce at L5 L1
  have s4 : ∑ r, Real.log (Real.cosh ((4 * wrongX r + -3 * wrongE r) / (5 * √26))) = ∑ r, Real.log (Real.cosh ((4 * wrongX r - 3 * wrongE r) / (5 * √26))) :=
    Finset.sum_congr rfl fun r _ => by rw [neg_mul, ← sub_eq_add_neg]
  have s1 : ∑ r, Real.log (Real.cosh ((1 * wrongX r + 0 * wrongE r) / √26)) = ∑ r, Real.log (Real.cosh (wrongX r / √26)) :=
    Finset.sum_congr rfl fun r _ => by rw [one_mul, zero_mul, add_zero]
  have s0 : ∑ r, Real.log (Real.cosh ((0 * wrongX r + 1 * wrongE r) / √26)) = ∑ r, Real.log (Real.cosh (wrongE r / √26)) :=
    Finset.sum_congr rfl fun r _ => by rw [one_mul, zero_mul, zero_add]
  rw [s4, s1, s0, L5.1, L5.2.1, L1.2.2.1, L1.2.2.2]
  have np : ∀ x, Real.cosh x ≠ 0 := fun x => (Real.cosh_pos x).ne'
  have wide : 12.5 * 0.37637 < Real.log (Real.cosh (3 / (5 * √26))) + Real.log (Real.cosh (4 / (5 * √26))) + Real.log (Real.cosh (24 / (5 * √26))) +
      Real.log (Real.cosh (32 / (5 * √26))) + Real.log (Real.cosh (7 / (5 * √26))) + Real.log (Real.cosh (1 / (5 * √26))) + Real.log (Real.cosh (56 / (5 * √26))) +
      Real.log (Real.cosh (8 / (5 * √26))) + Real.log (Real.cosh (35 / (5 * √26))) + Real.log (Real.cosh (29 / (5 * √26))) + Real.log (Real.cosh (28 / (5 * √26))) +
      Real.log (Real.cosh (20 / (5 * √26))) := by
    have h := wide_product
    have e := Real.log_le_log (by norm_num) h
    rw [Real.log_mul, Real.log_mul, Real.log_mul, Real.log_mul, Real.log_mul, Real.log_mul, Real.log_mul, Real.log_mul, Real.log_mul, Real.log_mul, Real.log_mul] at e
    · refine lt_of_lt_of_le ?_ e
      rw [Real.lt_log_iff_exp_lt (by norm_num), show (12.5 : ℝ) * 0.37637 = 1 + 1 + 1 + 1 + 0.704625 by norm_num, Real.exp_add, Real.exp_add, Real.exp_add, Real.exp_add]
      have h1 := Real.exp_one_lt_d9
      have p1 := Real.exp_pos 1
      have h2 : Real.exp 0.704625 ≤ 2.0232 := by
        refine le_trans (Real.exp_bound' (by norm_num) (by norm_num) (n := 8) (by norm_num)) ?_
        norm_num [Finset.sum_range_succ, Nat.factorial]
      have h3 : Real.exp 1 * Real.exp 1 * Real.exp 1 * Real.exp 1 ≤ 2.7182818286 * 2.7182818286 * 2.7182818286 * 2.7182818286 := by
        gcongr
      refine lt_of_le_of_lt (mul_le_mul h3 h2 (Real.exp_pos _).le (by norm_num)) ?_
      norm_num
    all_goals simp only [ne_eq, mul_eq_zero, np, or_self, not_false_eq_true]
  have narrow1 : 2.5 * 0.37277 < Real.log (Real.cosh (8 / √26)) + Real.log (Real.cosh (1 / √26)) := by
    rw [← Real.log_mul (np _) (np _), Real.lt_log_iff_exp_lt (mul_pos (Real.cosh_pos _) (Real.cosh_pos _))]
    refine lt_of_lt_of_le ?_ narrow_bounds.1
    refine lt_of_le_of_lt (Real.exp_bound' (by norm_num) (by norm_num) (n := 8) (by norm_num)) ?_
    norm_num [Finset.sum_range_succ, Nat.factorial]
  have narrow2 : Real.log (Real.cosh (8 / √26)) + Real.log (Real.cosh (1 / √26)) < 2.5 * 0.37637 := by
    rw [← Real.log_mul (np _) (np _), Real.log_lt_iff_lt_exp (mul_pos (Real.cosh_pos _) (Real.cosh_pos _))]
    refine lt_of_le_of_lt narrow_bounds.2 ?_
    refine lt_of_lt_of_le ?_ (Real.sum_le_exp_of_nonneg (by norm_num) 8)
    norm_num [Finset.sum_range_succ, Nat.factorial]
  generalize Real.log (Real.cosh (8 / √26)) + Real.log (Real.cosh (1 / √26)) = M at narrow1 narrow2 ⊢
  generalize Real.log (Real.cosh (3 / (5 * √26))) + Real.log (Real.cosh (4 / (5 * √26))) + Real.log (Real.cosh (24 / (5 * √26))) +
      Real.log (Real.cosh (32 / (5 * √26))) + Real.log (Real.cosh (7 / (5 * √26))) + Real.log (Real.cosh (1 / (5 * √26))) + Real.log (Real.cosh (56 / (5 * √26))) +
      Real.log (Real.cosh (8 / (5 * √26))) + Real.log (Real.cosh (35 / (5 * √26))) + Real.log (Real.cosh (29 / (5 * √26))) + Real.log (Real.cosh (28 / (5 * √26))) +
      Real.log (Real.cosh (20 / (5 * √26))) = W at wide ⊢
  have hW : 0.0018 ^ 2 < (2 * W / 25 - 0.37457) ^ 2 := by
    have : 0.0018 < 2 * W / 25 - 0.37457 := by norm_num at wide ⊢; linarith
    exact pow_lt_pow_left₀ this (by norm_num) (by norm_num)
  have hM : (10 * M / 25 - 0.37457) ^ 2 < 0.0018 ^ 2 := by
    have a1 : -0.0018 < 10 * M / 25 - 0.37457 := by norm_num at narrow1 ⊢; linarith
    have a2 : 10 * M / 25 - 0.37457 < 0.0018 := by norm_num at narrow2 ⊢; linarith
    exact sq_lt_sq' a1 a2
  linarith

theorem wrong_moments : IsStandard (fun r => wrongX r / √26) ∧ IsStandard (fun r => (3 * wrongX r + 4 * wrongE r) / (5 * √26)) ∧
    ((25 : ℕ) : ℝ) * (3 / 5) = ∑ r, wrongX r / √26 * ((3 * wrongX r + 4 * wrongE r) / (5 * √26)) := by
  have h26 := root_sq
  have pos : 0 < √26 := by positivity
  refine ⟨⟨sum_odd (F := fun x _ => x / √26) (fun x e => by ring), ?_⟩, ⟨sum_odd (F := fun x e => (3 * x + 4 * e) / (5 * √26)) (fun x e => by ring), ?_⟩, ?_⟩
  · rw [sum_wrong (fun x _ => (x / √26) ^ 2)]
    simp only [div_pow, h26]
    simp [Fin.sum_univ_five, fiveV]
    norm_num
  · rw [sum_wrong (fun x e => ((3 * x + 4 * e) / (5 * √26)) ^ 2)]
    simp only [div_pow, mul_pow, h26]
    simp [Fin.sum_univ_five, fiveV]
    norm_num
  · have : ∀ x e : ℝ, x / √26 * ((3 * x + 4 * e) / (5 * √26)) = x * (3 * x + 4 * e) / 130 := by
      intro x e
      rw [div_mul_div_comm, show √26 * (5 * √26) = 5 * √26 ^ 2 by ring, h26]
      norm_num
    simp only [this]
    rw [sum_wrong (fun x e => x * (3 * x + 4 * e) / 130)]
    simp [Fin.sum_univ_five, fiveV]
    norm_num

/-- The full claim fails: there is a cause with a finite non-Gaussian distribution and an exactly independent error of the same
distribution, for which the default measure always puts the effect first, although no linear model in the other direction has an
independent error. -/
theorem C229_violated {cfg : Direct.Config} (hpk : cfg.pk = none) :
    ∃ x e : Fin 25 → ℝ, SampleIndependent x e ∧ (∀ c : ℝ, ¬ SampleIndependent (fun r => 3 / 4 * x r + e r) (fun r => x r - c * (3 / 4 * x r + e r))) ∧
      fitOrder cfg 2 (fun j r => if j = 0 then x r else 3 / 4 * x r + e r) = .ok [1, 0] ∧
      fitOrder cfg 2 (fun j r => if j = 0 then 3 / 4 * x r + e r else x r) = .ok [0, 1] := by
  have pos : 0 < √26 := by positivity
  obtain ⟨zs, ws, hρ⟩ := wrong_moments
  have hx : ∀ r, wrongX r = √26 * (wrongX r / √26) + 0 := fun r => by field_simp; ring
  have hy : ∀ r, 3 / 4 * wrongX r + wrongE r = (5 * √26 / 4) * ((3 * wrongX r + 4 * wrongE r) / (5 * √26)) + 0 := fun r => by field_simp; ring
  refine ⟨wrongX, wrongE, wrong_independent, ?_, ?_, ?_⟩
  · intro c h
    have h1 := h (fun v => v) (fun v => v)
    have h2 := h (fun v => v ^ 2) (fun v => v ^ 2)
    beta_reduce at h1 h2
    rw [sum_wrong (fun x e => (3 / 4 * x + e) * (x - c * (3 / 4 * x + e))), sum_odd (F := fun x e => 3 / 4 * x + e) (fun x e => by ring), zero_mul] at h1
    rw [sum_wrong (fun x e => (3 / 4 * x + e) ^ 2 * (x - c * (3 / 4 * x + e)) ^ 2), sum_wrong (fun x e => (3 / 4 * x + e) ^ 2),
      sum_wrong (fun x e => (x - c * (3 / 4 * x + e)) ^ 2)] at h2
    simp [Fin.sum_univ_five, fiveV] at h1 h2
    have hc : c = 12 / 25 := by nlinarith
    subst hc
    norm_num at h2
  · rw [C143_pair hpk (by norm_num) (X := fun j r => if j = 0 then wrongX r else 3 / 4 * wrongX r + wrongE r) (m := 0) (k := 0) zs ws pos.ne'
      (show 5 * √26 / 4 ≠ 0 by positivity) (fun r => by simpa using hx r) (fun r => by simpa using hy r) hρ (by norm_num), if_neg]
    have := wrong_score
    linarith
  · rw [C143_pair hpk (by norm_num) (X := fun j r => if j = 0 then 3 / 4 * wrongX r + wrongE r else wrongX r) (m := 0) (k := 0) ws zs
      (show 5 * √26 / 4 ≠ 0 by positivity) pos.ne' (fun r => by simpa using hy r) (fun r => by simpa using hx r)
      (hρ.trans (Finset.sum_congr rfl fun r _ => mul_comm _ _)) (by norm_num), if_pos]
    have := wrong_score
    unfold directionScore at this ⊢
    linarith

/-- Four rows meet the assumptions of `C229_coins_partial`. -/
example : ∃ x e : Fin 4 → ℝ, FairCoin x ∧ FairCoin e ∧ SampleIndependent x e := by
  refine ⟨![5, 5, 1, 1], ![2, -2, 2, -2], ⟨3, 2, by norm_num, ?_, ?_⟩, ⟨0, 2, by norm_num, ?_, ?_⟩, ?_⟩
  · intro r
    fin_cases r <;> norm_num
  · simp [Fin.sum_univ_four]; norm_num
  · intro r
    fin_cases r <;> norm_num
  · simp [Fin.sum_univ_four]
  · intro f g
    simp [Fin.sum_univ_four]
    ring

end Verif.Pairwise
