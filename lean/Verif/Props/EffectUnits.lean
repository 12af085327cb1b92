import Verif.Props.CausalEffect
import Verif.Proofs.LassoColumns
import Verif.Spec.Restated

/-! # CausalEffect in other units and with the columns in another order (C226) -/
set_option linter.unusedSectionVars false
set_option autoImplicit false
namespace Verif.Effect
open Finset
open Verif.Pairwise (rearranges_lt rearranges_inj rearranges_surj sum_rearranged)

variable {K : Type} [Field K] [LinearOrder K] [IsStrictOrderedRing K]

section
variable {n : Nat} {π : Nat → Nat} {c o : Nat → K} {B B' : Nat → Nat → K} {Ex Ex' : Nat → K}

/-- The solution of the equations in the new description. -/
theorem solves_restated (hπ : Rearranges n π) (hc : ∀ i, i < n → c i ≠ 0) (hB : RestatedMatrix n π c B B')
    (hE : RestatedValues n π c o Ex Ex') {i : Nat} (hi : i < n) {v : K} {e e' : Nat → K}
    (h : Solves n B (noiseMean n B Ex) (π i) v e) (he : RestatedValues n π c o e e') :
    Solves n B' (noiseMean n B' Ex') i (c i * v + o i) e' := by
  refine ⟨by rw [he i hi, h.1], fun k hk hne => ?_⟩
  have hkn := rearranges_lt hπ hk
  have hne' : π k ≠ π i := fun hh => hne (rearranges_inj hπ hk hi hh)
  have hsum : ∀ f f' : Nat → K, RestatedValues n π c o f f' → ∑ j ∈ range n, B' k j * f' j =
      c k * ∑ j ∈ range n, B (π k) j * f j + ∑ j ∈ range n, B' k j * o j := by
    intro f f' hf
    rw [← sum_rearranged hπ (fun j => B (π k) j * f j), mul_sum, ← sum_add_distrib]
    refine sum_congr rfl fun j hj => ?_
    have hj' := mem_range.1 hj
    have := hc j hj'
    rw [hf j hj', hB k hk j hj']
    field_simp
  have h1 := h.2 (π k) hkn hne'
  have h2 := hsum e e' he
  have h3 := hsum Ex Ex' hE
  unfold noiseMean at h1 ⊢
  rw [dot_eq] at h1 ⊢
  rw [he k hk, h1, h2, h3, hE k hk]
  ring

/-- The propagated values in the new description. -/
theorem propagate_restated (hπ : Rearranges n π) (hc : ∀ i, i < n → c i ≠ 0) (hB : RestatedMatrix n π c B B')
    (hE : RestatedValues n π c o Ex Ex') {order order' : List Nat} (ho : Consistent n B order) (ho' : Consistent n B' order')
    {i : Nat} (hi : i < n) (v : K) :
    RestatedValues n π c o (propagate n order B (noiseMean n B Ex) (π i) v)
      (propagate n order' B' (noiseMean n B' Ex') i (c i * v + o i)) := by
  have h := propagate_solves ho (noiseMean n B Ex) (rearranges_lt hπ hi) v
  have h' := solves_restated hπ hc hB hE hi h
    (e' := fun k => c k * propagate n order B (noiseMean n B Ex) (π i) v (π k) + o k) (fun _ _ => rfl)
  exact fun k hk => (C34_solves_uniquely ho' _ hi _).2 _ h' k hk

/-- C226, partial (no coefficient strictly between 0 and `1e-10` in absolute value in either description, see
`C226_effects_units_violated`): `estimate_effects_on_prediction` reports for each variable the same two numbers whatever the units, the
origins and the order of the columns, for every prediction model that gives the same predictions; for a variable whose sign is
reversed the two numbers change places. -/
theorem C226_effects_partial (hπ : Rearranges n π) (hc : ∀ i, i < n → c i ≠ 0) (hB : RestatedMatrix n π c B B')
    (hE : RestatedValues n π c o Ex Ex') (big : ∀ i j, i < n → j < n → B i j = 0 ∨ 1 / 10 ^ 10 ≤ |B i j|)
    (big' : ∀ i j, i < n → j < n → B' i j = 0 ∨ 1 / 10 ^ 10 ≤ |B' i j|) {order order' : List Nat}
    (ho : causalOrder n B = some order) (ho' : causalOrder n B' = some order') {std std' : Nat → K}
    (hs : ∀ i, i < n → std' i = |c i| * std (π i)) {target target' : Nat} {pred pred' : List K → K}
    (hp : ∀ e e', RestatedValues n π c o e e' → pred' (others n target' e') = pred (others n target e)) {i : Nat} (hi : i < n) :
    effectsOnPrediction n order' B' Ex' std' target' pred' i =
      if 0 < c i then effectsOnPrediction n order B Ex std target pred (π i)
      else (effectsOnPrediction n order B Ex std target pred (π i)).swap := by
  have k := fun w => hp _ _ (propagate_restated hπ hc hB hE ((C33_exact_partial big).2 _ ho) ((C33_exact_partial big').2 _ ho') hi w)
  have h0 := k (Ex (π i))
  have h1 := k (Ex (π i) + std (π i))
  have h2 := k (Ex (π i) - std (π i))
  rw [← hE i hi] at h0
  have e1 : c i * (Ex (π i) + std (π i)) + o i = Ex' i + c i * std (π i) := by rw [hE i hi]; ring
  have e2 : c i * (Ex (π i) - std (π i)) + o i = Ex' i - c i * std (π i) := by rw [hE i hi]; ring
  rw [e1] at h1
  rw [e2] at h2
  unfold effectsOnPrediction
  by_cases hp' : 0 < c i
  · rw [if_pos hp']
    simp only [hs i hi, abs_of_pos hp', h0, h1, h2]
  · have hneg : c i ≤ 0 := not_lt.1 hp'
    rw [if_neg hp']
    simp only [hs i hi, abs_of_nonpos hneg, h0, neg_mul, ← sub_eq_add_neg, sub_neg_eq_add, h1, h2, Prod.swap]

/-- The prediction of a linear model is affine in the value of the intervention. -/
theorem prediction_affine {order : List Nat} (ho : Consistent n B order) {idx : Nat} (hi : idx < n) (target : Nat) (coef : Nat → K) (b : K) :
    ∃ p q : K, ∀ w, linearPred coef b (others n target (propagate n order B (noiseMean n B Ex) idx w)) = p + w * q := by
  have h0 := propagate_solves ho (noiseMean n B Ex) hi 0
  have h1 := propagate_solves ho (fun _ => 0) hi 1
  refine ⟨linearPred coef b (others n target (propagate n order B (noiseMean n B Ex) idx 0)),
    ∑ j ∈ range n, insertZero coef target j * propagate n order B (fun _ => 0) idx 1 j, fun w => ?_⟩
  have hw := h0.affine (w := w) h1
  rw [zero_add] at hw
  rw [linearPred_others, linearPred_others, mul_sum, add_right_comm, ← sum_add_distrib]
  congr 1
  refine sum_congr rfl fun j hj => ?_
  rw [(C34_solves_uniquely ho _ hi w).2 _ hw j (mem_range.1 hj)]
  ring

/-- C226, partial (no coefficient strictly between 0 and `1e-10` in absolute value and no row of coefficients with sum 0 in either
description, see `C226_optimal_units_violated`): `estimate_optimal_intervention` returns the same intervention, written in the new unit,
whatever the units, the origins, the order of the columns and the random choices. -/
theorem C226_optimal_partial (hπ : Rearranges n π) (hc : ∀ i, i < n → c i ≠ 0) (hB : RestatedMatrix n π c B B')
    (hE : RestatedValues n π c o Ex Ex') (big : ∀ i j, i < n → j < n → B i j = 0 ∨ 1 / 10 ^ 10 ≤ |B i j|)
    (big' : ∀ i j, i < n → j < n → B' i j = 0 ∨ 1 / 10 ^ 10 ≤ |B' i j|) {order order' : List Nat}
    (ho : causalOrder n B = some order) (ho' : causalOrder n B' = some order') {target target' : Nat} {coef coef' : Nat → K}
    {b b' s t : K} (hs : s ≠ 0)
    (hp : ∀ e e', RestatedValues n π c o e e' →
      linearPred coef' b' (others n target' e') = s * linearPred coef b (others n target e) + t) {idx : Nat} (hi : idx < n)
    (hno : NoCancel n B (π idx)) (hno' : NoCancel n B' idx) {desired : K} {choices choices' : List Nat} {v v' : K}
    (h : optimal n B Ex target coef b (π idx) desired choices = some v)
    (h' : optimal n B' Ex' target' coef' b' idx (s * desired + t) choices' = some v')
    (heff : linearPred coef b (others n target (propagate n order B (noiseMean n B Ex) (π idx) 0)) ≠
      linearPred coef b (others n target (propagate n order B (noiseMean n B Ex) (π idx) 1))) :
    v' = c idx * v + o idx := by
  have hC := (C33_exact_partial big).2 _ ho
  have hC' := (C33_exact_partial big').2 _ ho'
  have k := fun w => hp _ _ (propagate_restated hπ hc hB hE hC hC' hi w)
  obtain ⟨p, q, hpq⟩ := prediction_affine (Ex := Ex') hC' hi target' coef' b'
  have hq : q ≠ 0 := by
    rintro rfl
    apply heff
    have h0 := k 0
    have h1 := k 1
    rw [hpq] at h0 h1
    have : s * linearPred coef b (others n target (propagate n order B (noiseMean n B Ex) (π idx) 0)) =
      s * linearPred coef b (others n target (propagate n order B (noiseMean n B Ex) (π idx) 1)) := by linarith
    exact mul_left_cancel₀ hs this
  have r := C35_reaches_desired_partial hC Ex target coef b (rearranges_lt hπ hi) hno desired choices h heff
  have r' := C35_reaches_desired_partial hC' Ex' target' coef' b' hi hno' (s * desired + t) choices' h' (by
    rw [hpq, hpq]; intro hh; apply hq; linarith)
  have kv := k v
  rw [r, hpq] at kv
  rw [hpq] at r'
  have : v' * q = (c idx * v + o idx) * q := by linarith
  exact mul_right_cancel₀ hq this

end

/-! ### The partial claims cannot be extended -/

/-- C226 fails for small coefficients: with `x0 = 0.1 x1` (variable 1 has standard deviation 1) an intervention at variable 1 changes
the prediction of a model that reads `x0` by 0.1; with `x1` in a unit `1e-10` times as large the coefficient is `1e-11`, the order of the
variables is taken the wrong way round, and the reported effect is 0. -/
theorem C226_effects_units_violated : ∃ (B B' : Nat → Nat → ℚ) (c : Nat → ℚ) (order order' : List Nat),
    RestatedMatrix 3 id c B B' ∧ (∀ i, 0 < c i) ∧ causalOrder 3 B = some order ∧ causalOrder 3 B' = some order' ∧
      effectsOnPrediction 3 order B (fun _ => 0) (fun _ => 1) 2 (linearPred (fun k => if k = 0 then 1 else 0) 0) 1 = (1 / 10, 1 / 10) ∧
      effectsOnPrediction 3 order' B' (fun _ => 0) c 2 (linearPred (fun k => if k = 0 then 1 else 0) 0) 1 = (0, 0) := by
  refine ⟨fun i j => if i = 0 ∧ j = 1 then 1 / 10 else 0, fun i j => if i = 0 ∧ j = 1 then 1 / 10 ^ 11 else 0,
    fun i => if i = 1 then 10 ^ 10 else 1, [1, 0, 2], [0, 1, 2], ?_, ?_, by decide +kernel, by decide +kernel, by decide +kernel,
    by decide +kernel⟩
  · intro i hi j hj
    have h1 : i = 0 ∨ i = 1 ∨ i = 2 := by omega
    have h2 : j = 0 ∨ j = 1 ∨ j = 2 := by omega
    rcases h1 with rfl | rfl | rfl <;> rcases h2 with rfl | rfl | rfl <;> norm_num
  · intro i; beta_reduce; split <;> norm_num

/-- C226 fails for the optimal intervention when a row of coefficients has sum 0 in one of the two units: `x1 = 2 x0`, `x2 = x0 - x1`
and a model that predicts `x3` by `x2`.  For the desired output 5 the intervention is the quotient 5 / 0; with `x1` measured in a unit
half as large it is `x0 = -5`. -/
theorem C226_optimal_units_violated : ∃ (B B' : Nat → Nat → ℚ) (c : Nat → ℚ),
    RestatedMatrix 4 id c B B' ∧ (∀ i, 0 < c i) ∧ Consistent 4 B [0, 1, 2, 3] ∧
      ((optRun 4 B (noiseMean 4 B (fun _ => 0)) 0 [1] (optInit 4 B (fun _ => 0) 0)).map
        (fun st => dot 4 (insertZero (fun k => if k = 2 then 1 else 0) 3) st.alpha)) = some 0 ∧
      optimal 4 B' (fun _ => 0) 3 (fun k => if k = 2 then 1 else 0) 0 0 5 [1, 2] = some (-5) := by
  refine ⟨cancelB, fun i j => if i = 1 ∧ j = 0 then 4 else if i = 2 ∧ j = 0 then 1 else if i = 2 ∧ j = 1 then -1 / 2 else 0,
    fun i => if i = 1 then 2 else 1, ?_, ?_, C35_cancelling_row.1, by decide +kernel, by decide +kernel⟩
  · intro i hi j hj
    have h1 : i = 0 ∨ i = 1 ∨ i = 2 ∨ i = 3 := by omega
    have h2 : j = 0 ∨ j = 1 ∨ j = 2 ∨ j = 3 := by omega
    rcases h1 with rfl | rfl | rfl | rfl <;> rcases h2 with rfl | rfl | rfl | rfl <;> norm_num [cancelB]
  · intro i; beta_reduce; split <;> norm_num

/-! ### A case meeting the hypotheses -/

/-- `exB` with the columns reversed, the new variable 2 (the old 0) in another unit and with the opposite sign. -/
def exRestated : Nat → Nat → ℚ := fun i j => exB (2 - i) (2 - j) * ((if i = 2 then -2 else 1) / (if j = 2 then -2 else 1))

example : Rearranges 3 (2 - ·) ∧ RestatedMatrix 3 (2 - ·) (fun i => if i = 2 then (-2 : ℚ) else 1) exB exRestated ∧
    causalOrder 3 exB = some [0, 1, 2] ∧ causalOrder 3 exRestated = some [2, 1, 0] ∧
    effectsOnPrediction 3 [0, 1, 2] exB (fun _ => 1) (fun _ => 1) 2 (linearPred (fun k => if k = 1 then 1 else 0) 0) 0 = (2, 2) ∧
    effectsOnPrediction 3 [2, 1, 0] exRestated (fun i => if i = 2 then -2 else 1) (fun i => if i = 2 then 2 else 1) 0
      (linearPred (fun k => if k = 0 then 1 else 0) 0) 2 = (2, 2) := by
  refine ⟨by unfold Rearranges; decide +kernel, fun i _ j _ => rfl, by decide +kernel, by decide +kernel, by decide +kernel,
    by decide +kernel⟩

/-- The optimal intervention 5 on the old variable 0 becomes -10. -/
example : optimal 3 exB (fun i => ((i : ℚ) + 1)) 2 (fun i => if i = 1 then 1 else 0) 0 0 10 [1, 2] = some 5 ∧
    optimal 3 exRestated (fun i => (if i = 2 then -2 else 1) * (((2 - i : Nat) : ℚ) + 1)) 0 (fun i => if i = 0 then 1 else 0) 0 2 10 [1, 0]
      = some (-10) := by decide +kernel

end Verif.Effect
