import Verif.Proofs.CausalEffect
import Verif.Props.Paths
import Mathlib.Algebra.Order.Ring.Rat
import Mathlib.Algebra.Field.Rat
import Mathlib.Tactic.NormNum

/-! # CausalEffect (C33–C35) -/
set_option linter.unusedSectionVars false
set_option autoImplicit false
namespace Verif.Effect

variable {K : Type} [Field K] [LinearOrder K] [IsStrictOrderedRing K]

/-! ### C33: validation of the causal model -/

/-- C33, partial: an accepted matrix has no cycle among the coefficients of absolute value at least `1e-10`, and the order
used agrees with all of those. Missing: smaller coefficients, see `C33_tiny_cycle_accepted`. -/
theorem C33_accepted_sound_partial {n : Nat} {B : Nat → Nat → K} {order : List Nat} (h : causalOrder n B = some order) :
    IsOrder n order ∧ (∀ i j, i < n → j < n → 1 / 10 ^ 10 ≤ |B i j| → Before order j i) ∧
      Acyclic (Edge n B (1 / 10 ^ 10)) := by
  obtain ⟨hp, hr⟩ := orderLoop_some (n := n) n (List.range n) [] order (by simp) (by simp) (by simp) h
  have ho := IsOrder.perm.2 hp
  have hb : ∀ i j, i < n → j < n → 1 / 10 ^ 10 ≤ |B i j| → Before order j i := by
    intro i j hi hj hw
    obtain ⟨p, s, hps⟩ := List.append_of_mem ((ho.2 i).2 hi)
    have hlt := hr p i s hps
    have hjs : j ∉ i :: s := by
      intro hm
      have := rowAbs_ge (B := B) (a := i) hm
      have he : (1 / 10 ^ 10 : K) = eps := rfl
      rw [he] at hw
      exact absurd hlt (not_lt.2 (hw.trans this))
    have hjp : j ∈ p := by
      have := (ho.2 j).2 hj
      rw [hps] at this
      rcases List.mem_append.1 this with h | h
      · exact h
      · exact absurd h hjs
    rw [hps]
    exact Before.of_mem_append hjp (by simp)
  refine ⟨ho, hb, acyclic_of_before ho.1 ?_⟩
  rintro a b ⟨ha, hb', hw⟩
  exact hb b a hb' ha hw.le

/-- C33: every acyclic matrix is accepted. -/
theorem C33_acyclic_accepted {n : Nat} {B : Nat → Nat → K} (hE : Acyclic (Edge n B 0)) :
    ∃ order, causalOrder n B = some order := by
  cases h : causalOrder n B with
  | some o => exact ⟨o, rfl⟩
  | none =>
    exfalso
    obtain ⟨T, h1, h2, h3⟩ := orderLoop_none n (List.range n) [] (by simp) h
    obtain ⟨m, hm, hmin⟩ := exists_minimal hE T h1
    have hz : rowAbs B T m = 0 := by
      unfold rowAbs
      refine List.sum_eq_zero ?_
      intro x hx
      obtain ⟨b, hb, rfl⟩ := List.mem_map.1 hx
      by_contra hc
      exact hmin b hb ⟨List.mem_range.1 (h2 hb), List.mem_range.1 (h2 hm), lt_of_le_of_ne (abs_nonneg _) (Ne.symm hc)⟩
    have := h3 m hm
    rw [hz] at this
    exact absurd eps_pos (not_lt.2 this)

/-- C33, partial: if all nonzero coefficients have absolute value at least `1e-10`, a matrix is accepted exactly when it is
acyclic, and the order used is consistent with it. -/
theorem C33_exact_partial {n : Nat} {B : Nat → Nat → K}
    (hB : ∀ i j, i < n → j < n → B i j = 0 ∨ 1 / 10 ^ 10 ≤ |B i j|) :
    ((∃ order, causalOrder n B = some order) ↔ Acyclic (Edge n B 0)) ∧
    ∀ order, causalOrder n B = some order → Consistent n B order := by
  have hc : ∀ order, causalOrder n B = some order → Consistent n B order := by
    intro order h
    obtain ⟨h1, h2, _⟩ := C33_accepted_sound_partial h
    exact ⟨h1, fun i j hi hj hne => h2 i j hi hj ((hB i j hi hj).resolve_left hne)⟩
  exact ⟨⟨fun ⟨o, h⟩ => (hc o h).acyclic, C33_acyclic_accepted⟩, hc⟩

/-- Two variables causing each other with coefficient `1e-11`. -/
def tinyCycle : Nat → Nat → ℚ := fun i j => if i = j then 0 else 1 / 10 ^ 11

/-- C33 fails: a cyclic matrix is accepted. -/
theorem C33_tiny_cycle_accepted : (∃ order, causalOrder 2 tinyCycle = some order) ∧ ¬ Acyclic (Edge 2 tinyCycle 0) := by
  refine ⟨⟨[0, 1], by decide +kernel⟩, fun h => h 0 ?_⟩
  have h01 : Edge 2 tinyCycle 0 0 1 := ⟨by norm_num, by norm_num, by unfold tinyCycle; norm_num⟩
  have h10 : Edge 2 tinyCycle 0 1 0 := ⟨by norm_num, by norm_num, by unfold tinyCycle; norm_num⟩
  exact (Relation.TransGen.single h01).tail h10

/-- A tiny edge `1 → 0`. -/
def tinyEdge : Nat → Nat → ℚ := fun i j => if i = 0 ∧ j = 1 then 1 / 10 ^ 11 else 0

/-- C33 fails: for an acyclic matrix the order used can contradict an edge; the effect of an intervention on the cause is
then not propagated. -/
theorem C33_order_can_contradict : causalOrder 2 tinyEdge = some [0, 1] ∧ ¬ Consistent 2 tinyEdge [0, 1] ∧
    propagate 2 [0, 1] tinyEdge (fun _ => 0) 1 (10 ^ 11) 0 = 0 ∧
    propagate 2 [1, 0] tinyEdge (fun _ => 0) 1 (10 ^ 11) 0 = 1 := by
  refine ⟨by decide +kernel, ?_, by decide +kernel, by decide +kernel⟩
  intro h
  have hb := h.2 0 1 (by norm_num) (by norm_num) (by unfold tinyEdge; norm_num)
  have hb' : Before [0, 1] 0 1 := ⟨[], [], [], rfl⟩
  exact Before.irrefl h.1.1 0 (hb'.trans h.1.1 hb)

/-! ### C34: propagated effects -/

/-- C34: the propagated values solve the structural equations with the intervened variable fixed, and they are the only
solution. -/
theorem C34_solves_uniquely {n : Nat} {B : Nat → Nat → K} {order : List Nat} (hc : Consistent n B order) (En : Nat → K)
    {idx : Nat} (hidx : idx < n) (v : K) :
    Solves n B En idx v (propagate n order B En idx v) ∧
      ∀ e, Solves n B En idx v e → ∀ i, i < n → propagate n order B En idx v i = e i :=
  ⟨propagate_solves hc En hidx v, fun _ he => solves_unique hc.acyclic (propagate_solves hc En hidx v) he⟩

/-- C34: intervening at a variable's mean leaves all means unchanged. -/
theorem C34_mean_unchanged {n : Nat} {B : Nat → Nat → K} {order : List Nat} (hc : Consistent n B order) (Ex : Nat → K)
    {idx : Nat} (hidx : idx < n) (i : Nat) (hi : i < n) :
    propagate n order B (noiseMean n B Ex) idx (Ex idx) i = Ex i := by
  refine (C34_solves_uniquely hc _ hidx _).2 Ex ⟨rfl, fun i hi _ => ?_⟩ i hi
  unfold noiseMean
  rw [dot_eq]; ring

/-- The total effects of `idx` solve the homogeneous equations. -/
theorem totalEffect_solves {n : Nat} {B : Nat → Nat → K} (hE : Acyclic (Edge n B 0)) {idx : Nat} (hidx : idx < n) :
    Solves n B (fun _ => 0) idx 1 (fun i => Paths.pathSum n (fun i j => some (B i j)) i n idx) := by
  have hE' : Acyclic (Edge n (Paths.clean (fun i j => some (B i j))) 0) := hE
  constructor
  · simp only [Paths.pathSum]
    obtain ⟨m, rfl⟩ : ∃ m, n = m + 1 := ⟨n - 1, by omega⟩
    rw [Paths.enum, if_pos rfl]
    simp [pathWeight]
  · intro i hi hne
    simp only [add_zero]
    have hm := Paths.pathSum_mul hE'
    have hm' := mul_eq_one_comm.1 hm
    have := congrFun (congrFun hm' ⟨i, hi⟩) ⟨idx, hidx⟩
    rw [sub_mul, one_mul, Matrix.sub_apply, Matrix.mul_apply, Matrix.one_apply_ne (by simpa [Fin.ext_iff] using hne)] at this
    simp only [Matrix.of_apply] at this
    rw [sub_eq_zero] at this
    rw [this, Finset.sum_range]
    rfl

/-- C34: changing the intervention by some amount changes another variable by that amount times the total effect, as
computed by `calculate_total_effect`. -/
theorem C34_change_is_total_effect {n : Nat} {B : Nat → Nat → K} {order : List Nat} (hc : Consistent n B order)
    (En : Nat → K) {idx t : Nat} (hidx : idx < n) (ht : t < n) (hne : idx ≠ t) (v w : K) :
    ∃ T, Paths.calcTotalEffect n (fun i j => some (B i j)) idx t = some (.ok (some T)) ∧
      propagate n order B En idx (v + w) t = propagate n order B En idx v t + w * T := by
  refine ⟨_, Paths.C13_total_effect_is_inverse_entry n (fun i j => some (B i j)) ⟨idx, hidx⟩ ⟨t, ht⟩ hc.acyclic
    (by simpa [Fin.ext_iff] using hne), ?_⟩
  rw [Paths.inv_apply hc.acyclic]
  exact (C34_solves_uniquely hc En hidx (v + w)).2 _
    ((propagate_solves hc En hidx v).affine (totalEffect_solves hc.acyclic hidx)) t ht

/-- C34: for a linear prediction model both reported effects of a variable are the standard deviation times the absolute
value of the coefficient-weighted sum of its total effects on the predictors. -/
theorem C34_linear_effects {n : Nat} {B : Nat → Nat → K} {order : List Nat} (hc : Consistent n B order) (Ex std : Nat → K)
    (target : Nat) (coef : Nat → K) (b : K) {i : Nat} (hi : i < n) {T : Nat → K} (hT1 : T i = 1)
    (hT : ∀ t, t < n → t ≠ i → Paths.calcTotalEffect n (fun i j => some (B i j)) i t = some (.ok (some (T t)))) :
    effectsOnPrediction n order B Ex std target (linearPred coef b) i =
      (|std i * linearPred coef 0 (others n target T)|, |std i * linearPred coef 0 (others n target T)|) := by
  have key : ∀ w t, t < n → propagate n order B (noiseMean n B Ex) i (Ex i + w) t = Ex t + w * T t := by
    intro w t ht
    by_cases hti : t = i
    · subst hti
      rw [(propagate_solves hc _ hi _).1, hT1]; ring
    · obtain ⟨T', h1, h2⟩ := C34_change_is_total_effect hc (noiseMean n B Ex) hi ht (Ne.symm hti) (Ex i) w
      rw [hT t ht hti] at h1
      simp only [Option.some.injEq, Except.ok.injEq] at h1
      rw [h2, h1, C34_mean_unchanged hc Ex hi t ht]
  have hmean : ∀ t, t < n → propagate n order B (noiseMean n B Ex) i (Ex i) t = Ex t :=
    fun t ht => C34_mean_unchanged hc Ex hi t ht
  have hsum : ∀ w : K, (∑ j ∈ Finset.range n, insertZero coef target j *
      propagate n order B (noiseMean n B Ex) i (Ex i + w) j) =
      (∑ j ∈ Finset.range n, insertZero coef target j * Ex j) + w * ∑ j ∈ Finset.range n, insertZero coef target j * T j := by
    intro w
    rw [Finset.mul_sum, ← Finset.sum_add_distrib]
    refine Finset.sum_congr rfl fun j hj => ?_
    rw [key w j (Finset.mem_range.1 hj)]; ring
  have hsum0 : (∑ j ∈ Finset.range n, insertZero coef target j *
      propagate n order B (noiseMean n B Ex) i (Ex i) j) = ∑ j ∈ Finset.range n, insertZero coef target j * Ex j :=
    Finset.sum_congr rfl fun j hj => by rw [hmean j (Finset.mem_range.1 hj)]
  unfold effectsOnPrediction
  simp only [linearPred_others, sub_eq_add_neg (Ex i) (std i), hsum, hsum0]
  refine Prod.ext ?_ ?_
  · simp only
    rw [← abs_neg]; congr 1; ring
  · simp only
    congr 1; ring

/-! ### C35: the optimal intervention -/

/-- C35, partial (no row of coefficients may cancel, see `C35_cancelling_row`): for every sequence of random choices, the
returned value makes the expected prediction equal to the desired output. -/
theorem C35_reaches_desired_partial {n : Nat} {B : Nat → Nat → K} {order : List Nat} (hc : Consistent n B order)
    (Ex : Nat → K) (target : Nat) (coef : Nat → K) (b : K) {idx : Nat} (hidx : idx < n) (hno : NoCancel n B idx)
    (desired : K) (choices : List Nat) {v : K} (h : optimal n B Ex target coef b idx desired choices = some v)
    (heff : linearPred coef b (others n target (propagate n order B (noiseMean n B Ex) idx 0)) ≠
      linearPred coef b (others n target (propagate n order B (noiseMean n B Ex) idx 1))) :
    linearPred coef b (others n target (propagate n order B (noiseMean n B Ex) idx v)) = desired := by
  unfold optimal at h
  rw [Option.map_eq_some_iff] at h
  obtain ⟨st, hst, rfl⟩ := h
  obtain ⟨hinv, hs⟩ := optRun_inv choices (Inv.init hno) hst
  obtain ⟨s1, s2⟩ := hinv.solves hs
  have hprop : ∀ w j, j < n → propagate n order B (noiseMean n B Ex) idx w j = st.Ex j + w * st.alpha j := by
    intro w j hj
    have := s1.affine (w := w) s2
    rw [zero_add] at this
    exact (C34_solves_uniquely hc _ hidx w).2 _ this j hj
  have hlin : ∀ w, linearPred coef b (others n target (propagate n order B (noiseMean n B Ex) idx w)) =
      dot n (insertZero coef target) st.Ex + w * dot n (insertZero coef target) st.alpha + b := by
    intro w
    rw [linearPred_others, dot_eq, dot_eq, Finset.mul_sum, ← Finset.sum_add_distrib]
    congr 1
    refine Finset.sum_congr rfl fun j hj => ?_
    rw [hprop w j (Finset.mem_range.1 hj)]; ring
  have hne : dot n (insertZero coef target) st.alpha ≠ 0 := by
    intro hz
    apply heff
    rw [hlin, hlin, hz]; ring
  rw [hlin, div_mul_cancel₀ _ hne]
  ring

/-- C35: the result does not depend on the random choices (when no row cancels). -/
theorem C35_choices_irrelevant_partial {n : Nat} {B : Nat → Nat → K} (hE : Acyclic (Edge n B 0)) (Ex : Nat → K)
    (target : Nat) (coef : Nat → K) (b : K) {idx : Nat} (hno : NoCancel n B idx) (desired : K)
    {choices choices' : List Nat} {v v' : K} (h : optimal n B Ex target coef b idx desired choices = some v)
    (h' : optimal n B Ex target coef b idx desired choices' = some v') : v = v' := by
  unfold optimal at h h'
  rw [Option.map_eq_some_iff] at h h'
  obtain ⟨st, hst, rfl⟩ := h
  obtain ⟨st', hst', rfl⟩ := h'
  obtain ⟨i1, s1⟩ := optRun_inv choices (Inv.init hno) hst
  obtain ⟨i2, s2⟩ := optRun_inv choices' (Inv.init hno) hst'
  have e1 : dot n (insertZero coef target) st.Ex = dot n (insertZero coef target) st'.Ex := by
    rw [dot_eq, dot_eq]
    exact Finset.sum_congr rfl fun j hj => by
      rw [solves_unique hE (i1.solves s1).1 (i2.solves s2).1 j (Finset.mem_range.1 hj)]
  have e2 : dot n (insertZero coef target) st.alpha = dot n (insertZero coef target) st'.alpha := by
    rw [dot_eq, dot_eq]
    exact Finset.sum_congr rfl fun j hj => by
      rw [solves_unique hE (i1.solves s1).2 (i2.solves s2).2 j (Finset.mem_range.1 hj)]
  rw [e1, e2]

/-- C35: the loop never gets stuck: while variables are left, some choice removes one (so it ends with probability one),
and a complete sequence of choices exists. -/
theorem C35_progress {n : Nat} {B : Nat → Nat → K} (hE : Acyclic (Edge n B 0)) (En : Nat → K) (idx : Nat) (st : Opt K)
    (hs : ∀ k ∈ st.s, k < n) :
    (st.s ≠ [] → ∃ k ∈ st.s, (optStep n B En idx st k).s = st.s.erase k) ∧
    ∃ choices, (optRun n B En idx choices st).isSome := by
  have step : ∀ st : Opt K, (∀ k ∈ st.s, k < n) → st.s ≠ [] → ∃ k ∈ st.s, (optStep n B En idx st k).s = st.s.erase k := by
    intro st hs hne
    obtain ⟨m, hm, hmin⟩ := exists_minimal hE st.s hne
    refine ⟨m, hm, ?_⟩
    unfold optStep
    rw [if_pos]
    rw [List.filter_eq_nil_iff]
    intro q hq
    rw [mem_parents] at hq
    simp only [decide_eq_true_eq]
    intro hqs
    exact hmin q hqs ⟨hq.1, hs m hm, abs_pos.2 hq.2⟩
  refine ⟨step st hs, ?_⟩
  obtain ⟨k, hk⟩ : ∃ k, st.s.length = k := ⟨_, rfl⟩
  induction k generalizing st with
  | zero => exact ⟨[], by simp [optRun, List.length_eq_zero_iff.1 hk]⟩
  | succ k ih =>
    obtain ⟨m, hm, he⟩ := step st hs (by rintro h; rw [h] at hk; simp at hk)
    obtain ⟨cs, hcs⟩ := ih (optStep n B En idx st m) (by rw [he]; exact fun x hx => hs x (List.mem_of_mem_erase hx))
      (by rw [he, List.length_erase_of_mem hm, hk]; rfl)
    exact ⟨m :: cs, by simpa [optRun, hm] using hcs⟩

/-- `x1 = 2 x0`, `x2 = x0 - x1`: the coefficients of `x2` sum to zero. -/
def cancelB : Nat → Nat → ℚ := fun i j =>
  if i = 1 ∧ j = 0 then 2 else if i = 2 ∧ j = 0 then 1 else if i = 2 ∧ j = 1 then -1 else 0

/-- The coefficient of `x2` only. -/
def cancelCoef : Nat → ℚ := fun i => if i = 2 then 1 else 0

/-- C35 fails when a row cancels: `x1 = 2 x0`, `x2 = x0 - x1`, prediction of `x3` by `x2`, desired output 5. The variable
`x2` is taken for a root, its effect is 0, and no intervention is found (division by zero), although setting `x0 = -5`
gives the desired output. -/
theorem C35_cancelling_row :
    Consistent 4 cancelB [0, 1, 2, 3] ∧
    ((optRun 4 cancelB (noiseMean 4 cancelB (fun _ => 0)) 0 [1] (optInit 4 cancelB (fun _ => 0) 0)).map
      (fun st => dot 4 (insertZero cancelCoef 3) st.alpha)) = some 0 ∧
    linearPred cancelCoef 0 (others 4 3 (propagate 4 [0, 1, 2, 3] cancelB (noiseMean 4 cancelB (fun _ => 0)) 0 (-5))) = 5 := by
  refine ⟨⟨⟨by decide, ?_⟩, ?_⟩, by decide +kernel, by decide +kernel⟩
  · intro i; simp only [List.mem_cons, List.not_mem_nil, or_false]; omega
  · intro i j hi hj hne
    have : (i = 1 ∧ j = 0) ∨ (i = 2 ∧ j = 0) ∨ (i = 2 ∧ j = 1) := by
      by_contra hc
      push Not at hc
      apply hne
      unfold cancelB
      rw [if_neg (by omega), if_neg (by omega), if_neg (by omega)]
    rcases this with ⟨rfl, rfl⟩ | ⟨rfl, rfl⟩ | ⟨rfl, rfl⟩
    · exact ⟨[], [], [2, 3], rfl⟩
    · exact ⟨[], [1], [3], rfl⟩
    · exact ⟨[0], [], [3], rfl⟩

/-! ### Concrete cases meeting the hypotheses -/

/-- `x1 = 2 x0`, `x2 = x0 + x1`. -/
def exB : Nat → Nat → ℚ := fun i j => if i = 1 ∧ j = 0 then 2 else if i = 2 ∧ j ≤ 1 then 1 else 0

example : causalOrder 3 exB = some [0, 1, 2] := by decide +kernel

/-- The order found is consistent (so the theorems about propagation apply). -/
example : Consistent 3 exB [0, 1, 2] := by
  refine (C33_exact_partial ?_).2 _ (by decide +kernel)
  intro i j _ _
  unfold exB
  split
  · right; norm_num
  · split
    · right; norm_num
    · left; rfl

/-- `do(x0 = 7)` with unit noise means. -/
example : (List.range 3).map (propagate 3 [0, 1, 2] exB (fun _ => 1) 0 7) = [7, 15, 23] := by decide +kernel

/-- No row cancels, and two different sequences of choices (one with a fruitless choice) give the same value: to reach
prediction 10 of the target `x2` by `x1` with means `(1, 2, 3)`, set `x0` to 5. -/
example : optimal 3 exB (fun i => ((i : ℚ) + 1)) 2 (fun i => if i = 1 then 1 else 0) 0 0 10 [1, 2] = some 5 ∧
    optimal 3 exB (fun i => ((i : ℚ) + 1)) 2 (fun i => if i = 1 then 1 else 0) 0 0 10 [2, 1, 2] = some 5 := by decide +kernel

example : NoCancel 3 exB 0 := by
  intro k hk hne hs j hj
  have : k = 1 ∨ k = 2 := by omega
  exfalso
  rcases this with rfl | rfl <;> (rw [← listSum_range] at hs; revert hs; unfold exB; decide +kernel)

end Verif.Effect
