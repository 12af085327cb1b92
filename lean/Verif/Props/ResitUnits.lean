import Verif.Props.ResitData

/-! C244: RESIT in other units and with the rows in another order. -/
set_option autoImplicit false
set_option linter.unusedSectionVars false
namespace Verif.ResitData

variable {N n : Nat}

/-- The predictions follow units and origins. -/
def RegUnits (reg : Regression N) : Prop := ∀ (q : Nat) (Z : Fin N → Fin q → ℝ) (y : Fin N → ℝ) (a b : Fin q → ℝ) (s t : ℝ), (∀ k, a k ≠ 0) → s ≠ 0 →
  ∀ r, reg q (fun r k => a k * Z r k + b k) (fun r => s * y r + t) r = s * reg q Z y r + t

/-- The predictions follow the rows. -/
def RegRows (reg : Regression N) : Prop := ∀ (q : Nat) (Z : Fin N → Fin q → ℝ) (y : Fin N → ℝ) (σ : Equiv.Perm (Fin N)) r,
  reg q (fun r => Z (σ r)) (fun r => y (σ r)) r = reg q Z y (σ r)

theorem testOf_units {reg : Regression N} (hreg : RegUnits reg) {c o : Nat → ℝ} (hc : ∀ j, c j ≠ 0) {X X' : Nat → Fin N → ℝ} (h : OtherUnits c o X X')
    (sf : ℝ → ℝ → ℝ → ℝ) (k : Nat) (l : List Nat) (hl : ∃ s, s ≠ 0 ∧ ∀ x ∈ l, c x = s) : testOf sf reg X' k l = testOf sf reg X k l := by
  obtain ⟨s, hs, hls⟩ := hl
  have e1 : X' k = fun r => c k * X k r + o k := funext fun r => h k r
  have e2 : rowsOf X' l = fun r j => c (l.get j) * rowsOf X l r j + o (l.get j) := funext fun r => funext fun j => h _ r
  have e3 : Mlhsicr.col (residual reg X' k l) = fun r j => c k * Mlhsicr.col (residual reg X k l) r j + (fun _ => 0) j := by
    funext r j
    show X' k r - reg l.length (rowsOf X' l) (X' k) r = c k * (X k r - reg l.length (rowsOf X l) (X k) r) + 0
    rw [e1, e2, hreg _ _ _ _ _ _ _ (fun k => hc _) (hc k)]
    ring
  have e4 : rowsOf X' l = fun r j => s * rowsOf X l r j + (fun j => o (l.get j)) j := by
    rw [e2]
    funext r j
    rw [hls _ (List.get_mem l j)]
  unfold testOf
  rw [e3, e4, Hsic.C114_hsic_units sf _ _ _ _ _ _ (hc k) hs]

/-- **C244.** RESIT does not depend on a common unit of all columns and on the origins of the columns if the predictions of the regressor follow units and
origins. -/
theorem C244_common {reg : Regression N} (hreg : RegUnits reg) {s : ℝ} (hs : s ≠ 0) {o : Nat → ℝ} {X X' : Nat → Fin N → ℝ}
    (h : OtherUnits (fun _ => s) o X X') (sf : ℝ → ℝ → ℝ → ℝ) (alpha : ℝ) (n : Nat) : fit sf reg alpha n X' = fit sf reg alpha n X := by
  have e : ∀ k l, testOf sf reg X' k l = testOf sf reg X k l := fun k l => testOf_units hreg (fun _ => hs) h sf k l ⟨s, hs, fun _ _ => rfl⟩
  have e1 : stat sf reg X' = stat sf reg X := by
    funext S k
    unfold stat
    rw [e]
  have e2 : pval sf reg X' = pval sf reg X := by
    funext t ps
    unfold pval
    rw [e]
  unfold fit
  rw [e1, e2]

/-- With two columns only the two statistics matter. -/
theorem fit_two (st : List Nat → Nat → Option ℝ) (pv : Nat → List Nat → Option ℝ) (alpha : ℝ) : Resit.fit st pv alpha 2 =
    (argmin [st [0, 1] 0, st [0, 1] 1]).bind (fun i => if i = 0 then some ([1, 0], fun a b => if a = 0 ∧ b = 1 then 1 else 0)
      else if i = 1 then some ([0, 1], fun a b => if a = 1 ∧ b = 0 then 1 else 0) else none) := by
  have hstep : Resit.estimateOrder st 2 =
      match (argmin [st [0, 1] 0, st [0, 1] 1]).bind (fun i => [0, 1][i]?) with
      | none => none
      | some k => Resit.orderLoop st 1 ([0, 1].filter (fun i => decide (i ≠ k)))
          (fun i => if i = k then [0, 1].filter (fun i => decide (i ≠ k)) else []) [k] := rfl
  have h1 : Resit.pruneParents pv alpha 0 [1] [1] = [1] := rfl
  have h0 : Resit.pruneParents pv alpha 1 [0] [0] = [0] := rfl
  unfold Resit.fit
  rw [hstep]
  rcases argmin [st [0, 1] 0, st [0, 1] 1] with _ | i
  · rfl
  · rcases i with _ | _ | i
    · simp only [Option.bind_some, List.getElem?_cons_zero, if_true]
      rw [show [0, 1].filter (fun i => decide (i ≠ 0)) = [1] from rfl]
      simp only [Resit.orderLoop, Resit.removeEdges, Resit.removeStep, List.range'_one, List.foldl_cons, List.foldl_nil, List.getElem?_cons_succ,
        List.getElem?_cons_zero, if_true, zero_ne_one, if_false, h1]
      congr 2
      funext a b
      by_cases ha : a = 0
      · simp [ha, Resit.removeStep, h1]
      · by_cases ha1 : a = 1 <;> simp [ha, ha1, Resit.removeStep]
    · simp only [Option.bind_some, List.getElem?_cons_zero, List.getElem?_cons_succ, if_true, one_ne_zero, if_false, zero_add]
      rw [show [0, 1].filter (fun i => decide (i ≠ 1)) = [0] from rfl]
      simp only [Resit.orderLoop, Resit.removeEdges, Resit.removeStep, List.range'_one, List.foldl_cons, List.foldl_nil, List.getElem?_cons_succ,
        List.getElem?_cons_zero, if_true, one_ne_zero, if_false, h0]
      congr 2
      funext a b
      by_cases ha : a = 1
      · simp [ha, Resit.removeStep, h0]
      · by_cases ha1 : a = 0 <;> simp [ha, ha1, Resit.removeStep]
    · simp

/-- **C244.** With two columns the units may be changed separately. -/
theorem C244_two {reg : Regression N} (hreg : RegUnits reg) {c o : Nat → ℝ} (hc : ∀ j, c j ≠ 0) {X X' : Nat → Fin N → ℝ}
    (h : OtherUnits c o X X') (sf : ℝ → ℝ → ℝ → ℝ) (alpha : ℝ) : fit sf reg alpha 2 X' = fit sf reg alpha 2 X := by
  have e0 : stat sf reg X' [0, 1] 0 = stat sf reg X [0, 1] 0 := by
    unfold stat
    rw [show [0, 1].filter (fun i => decide (i ≠ 0)) = [1] from rfl, testOf_units hreg hc h sf 0 [1] ⟨c 1, hc 1, by simp⟩]
  have e1 : stat sf reg X' [0, 1] 1 = stat sf reg X [0, 1] 1 := by
    unfold stat
    rw [show [0, 1].filter (fun i => decide (i ≠ 1)) = [0] from rfl, testOf_units hreg hc h sf 1 [0] ⟨c 0, hc 0, by simp⟩]
  unfold fit
  rw [fit_two, fit_two, e0, e1]

/-- **C244.** Rows may be permuted as long as the first 100 rows stay among themselves, if the predictions follow the rows. -/
theorem C244_rows {reg : Regression N} (hreg : RegRows reg) (X : Nat → Fin N → ℝ) {σ : Equiv.Perm (Fin N)} (hσ : ∀ i : Fin N, i.val < 100 ↔ (σ i).val < 100)
    (sf : ℝ → ℝ → ℝ → ℝ) (alpha : ℝ) (n : Nat) : fit sf reg alpha n (fun j r => X j (σ r)) = fit sf reg alpha n X := by
  have e : ∀ k l, testOf sf reg (fun j r => X j (σ r)) k l = testOf sf reg X k l := by
    intro k l
    unfold testOf
    have e3 : Mlhsicr.col (residual reg (fun j r => X j (σ r)) k l) = fun r => Mlhsicr.col (residual reg X k l) (σ r) := by
      funext r j
      exact congrArg (fun v => X k (σ r) - v) (hreg _ (rowsOf X l) (X k) σ r)
    rw [e3, show rowsOf (fun j r => X j (σ r)) l = fun r => rowsOf X l (σ r) from rfl, Hsic.C115_hsic_row_order_partial sf _ _ σ hσ]
  have e1 : stat sf reg (fun j r => X j (σ r)) = stat sf reg X := by
    funext S k
    unfold stat
    rw [e]
  have e2 : pval sf reg (fun j r => X j (σ r)) = pval sf reg X := by
    funext t ps
    unfold pval
    rw [e]
  unfold fit
  rw [e1, e2]

/-! ### Three columns in different units -/

/-- The kernel of a column with two values: `x` and `x + a`, for `t = a² / m` with `m` the squared distance in the width. -/
noncomputable def half (t : ℝ) : ℝ := (1 - Real.exp (-t)) / 2

theorem kernel_two {u v t : ℝ} (hu : u = 1 ∨ u = -1) (hv : v = 1 ∨ v = -1) : Real.exp (-(t * ((1 - u * v) / 2))) = (1 - half t) + half t * (u * v) := by
  unfold half
  rcases hu with rfl | rfl <;> rcases hv with rfl | rfl <;> norm_num <;> ring

theorem centred_one {u : Fin 8 → ℝ} (h0 : ∑ r, u r = 0) (b c : ℝ) : Hsic.centred (fun i j => b + c * (u i * u j)) = fun i j => c * (u i * u j) := by
  funext i j
  unfold Hsic.centred
  simp only [Finset.sum_add_distrib, ← Finset.mul_sum, ← Finset.sum_mul, h0, Finset.sum_const, Finset.card_univ, Fintype.card_fin, mul_zero, zero_mul]
  norm_num
  ring

theorem centred_two {u v : Fin 8 → ℝ} (hu : ∑ r, u r = 0) (hv : ∑ r, v r = 0) (huv : ∑ r, u r * v r = 0) (b c b' c' : ℝ) :
    Hsic.centred (fun i j => (b + c * (u i * u j)) * (b' + c' * (v i * v j))) =
      fun i j => c * b' * (u i * u j) + b * c' * (v i * v j) + c * c' * ((u i * v i) * (u j * v j)) := by
  have e : (fun i j => (b + c * (u i * u j)) * (b' + c' * (v i * v j))) =
      fun i j : Fin 8 => b * b' + c * b' * (u i * u j) + b * c' * (v i * v j) + c * c' * ((u i * v i) * (u j * v j)) := by
    funext i j
    ring
  rw [e]
  funext i j
  unfold Hsic.centred
  simp only [Finset.sum_add_distrib, ← Finset.mul_sum, ← Finset.sum_mul, hu, hv, huv, Finset.sum_const, Finset.card_univ, Fintype.card_fin, mul_zero, zero_mul]
  norm_num
  ring

theorem stat_two {u v w : Fin 8 → ℝ} (h1 : ∑ r, w r * u r = 0) (h2 : ∑ r, w r * v r = 0) (h3 : ∑ r, w r * (u r * v r) = 8) (p a b c : ℝ) :
    Hsic.testStat (fun i j => p * (w i * w j)) (fun i j => a * (u i * u j) + b * (v i * v j) + c * ((u i * v i) * (u j * v j))) = 8 * (p * c) := by
  unfold Hsic.testStat
  have e : ∑ i, ∑ j, p * (w j * w i) * (a * (u i * u j) + b * (v i * v j) + c * ((u i * v i) * (u j * v j))) =
      p * a * ((∑ i, w i * u i) * ∑ j, w j * u j) + p * b * ((∑ i, w i * v i) * ∑ j, w j * v j) +
        p * c * ((∑ i, w i * (u i * v i)) * ∑ j, w j * (u j * v j)) := by
    rw [Finset.sum_mul_sum, Finset.sum_mul_sum, Finset.sum_mul_sum]
    simp only [Finset.mul_sum, ← Finset.sum_add_distrib]
    refine Finset.sum_congr rfl fun i _ => Finset.sum_congr rfl fun j _ => ?_
    ring
  rw [e, h1, h2, h3]
  norm_num
  ring

/-- The width for whole-number distances. -/
theorem width_nat {d : Nat} {Y : Hsic.Dat 8 d} {D : Fin 8 → Fin 8 → ℕ} (hD : ∀ i j, Hsic.dist Y i j = D i j) {l : List ℕ} (hl : l.Pairwise (· ≤ ·))
    (hne : l.length ≠ 0)
    (hm : ((Finset.univ : Finset (Fin 8 × Fin 8)).filter (fun p => p.1 < p.2 ∧ 0 < D p.1 p.2)).val.map (fun p => D p.1 p.2) = (l : Multiset ℕ)) {m : ℕ}
    (h1 : l.getD ((l.length - 1) / 2) 0 = m) (h2 : l.getD (l.length / 2) 0 = m) : Hsic.kernelWidth Y = some (Real.sqrt (1 / 2 * m)) := by
  have hp : Hsic.positiveDists (Hsic.firstRows Y) = ((l.map (fun x : ℕ => (x : ℝ)) : List ℝ) : Multiset ℝ) := by
    have : Hsic.positiveDists Y = ((l.map (fun x : ℕ => (x : ℝ)) : List ℝ) : Multiset ℝ) := by
      rw [← Multiset.map_coe, ← hm, Multiset.map_map]
      unfold Hsic.positiveDists
      simp only [hD, Function.comp_def, Nat.cast_pos]
    exact this
  have hs : (l.map (fun x : ℕ => (x : ℝ))).Pairwise (· ≤ ·) := by
    rw [List.pairwise_map]
    exact hl.imp fun h => by exact_mod_cast h
  unfold Hsic.kernelWidth Hsic.median
  rw [hp, Multiset.coe_sort, List.mergeSort_of_pairwise (by simpa using hs)]
  have g : ∀ k, (l.map (fun x : ℕ => (x : ℝ))).getD k 0 = ((l.getD k 0 : ℕ) : ℝ) := by
    intro k
    simp only [List.getD_eq_getElem?_getD, List.getElem?_map]
    cases l[k]? <;> simp
  simp only [List.length_map, hne, if_false, Option.map_some, g, h1, h2]
  norm_num

/-- The bits of three throws of a coin, the third the exclusive or of the others; each combination twice. -/
def bit (j : Nat) (r : Fin 8) : ℕ := if j = 0 then r.val / 4 % 2 else if j = 1 then r.val / 2 % 2 else (r.val / 4 + r.val / 2) % 2

/-- The signs of the bits. -/
def sgn (j : Nat) (r : Fin 8) : ℝ := 1 - 2 * (bit j r : ℝ)

/-- Three columns, the first measured in units of `1 / s`. -/
def xorX (s : ℕ) : Nat → Fin 8 → ℝ := fun j r => (if j = 0 then (s : ℝ) else 1) * (bit j r : ℝ)

theorem sgn_cases (j : Nat) (r : Fin 8) : sgn j r = 1 ∨ sgn j r = -1 := by
  have : bit j r = 0 ∨ bit j r = 1 := by unfold bit; split_ifs <;> omega
  unfold sgn
  rcases this with h | h <;> rw [h] <;> norm_num

/-- The factor of column `j`. -/
def fac (s j : Nat) : ℕ := if j = 0 then s else 1

theorem dist_cols (s : ℕ) (l : List Nat) (i j : Fin 8) : Hsic.dist (rowsOf (xorX s) l) i j =
    ∑ k : Fin l.length, (fac s (l.get k) : ℝ) ^ 2 * ((1 - sgn (l.get k) i * sgn (l.get k) j) / 2) := by
  unfold Hsic.dist rowsOf xorX fac
  rw [Finset.mul_sum, ← Finset.sum_add_distrib, ← Finset.sum_sub_distrib]
  refine Finset.sum_congr rfl fun k _ => ?_
  have key : ∀ r, (bit (l.get k) r : ℝ) * bit (l.get k) r = bit (l.get k) r := by
    intro r
    have : bit (l.get k) r = 0 ∨ bit (l.get k) r = 1 := by unfold bit; split_ifs <;> omega
    rcases this with h | h <;> rw [h] <;> norm_num
  unfold sgn
  have h1 := key i
  have h2 := key j
  split_ifs
  · push_cast
    linear_combination (s : ℝ) ^ 2 * h1 + (s : ℝ) ^ 2 * h2
  · push_cast
    linear_combination h1 + h2

/-- The squared distances as whole numbers. -/
def sqd (s : ℕ) (l : List Nat) (i j : Fin 8) : ℕ := (l.map (fun x => if bit x i = bit x j then 0 else fac s x ^ 2)).sum

theorem dist_nat (s : ℕ) (l : List Nat) (i j : Fin 8) : Hsic.dist (rowsOf (xorX s) l) i j = (sqd s l i j : ℝ) := by
  rw [dist_cols]
  have e : ∀ x, (fac s x : ℝ) ^ 2 * ((1 - sgn x i * sgn x j) / 2) = ((if bit x i = bit x j then 0 else fac s x ^ 2 : ℕ) : ℝ) := by
    intro x
    have h : ∀ r, bit x r = 0 ∨ bit x r = 1 := by intro r; unfold bit; split_ifs <;> omega
    unfold sgn
    rcases h i with h1 | h1 <;> rcases h j with h2 | h2 <;> rw [h1, h2] <;> norm_num
  simp only [e]
  unfold sqd
  rw [← Nat.cast_sum]
  congr 1
  rw [← List.sum_ofFn]
  congr 1
  refine List.ext_getElem (by simp) fun m h1 h2 => ?_
  simp

theorem width_rows {s : ℕ} {l : List Nat} {q : List ℕ} (hl : q.Pairwise (· ≤ ·)) (hne : q.length ≠ 0)
    (hm : ((Finset.univ : Finset (Fin 8 × Fin 8)).filter (fun p => p.1 < p.2 ∧ 0 < sqd s l p.1 p.2)).val.map (fun p => sqd s l p.1 p.2) = (q : Multiset ℕ))
    {m : ℕ} (h1 : q.getD ((q.length - 1) / 2) 0 = m) (h2 : q.getD (q.length / 2) 0 = m) :
    Hsic.kernelWidth (rowsOf (xorX s) l) = some (Real.sqrt (1 / 2 * m)) :=
  width_nat (dist_nat s l) hl hne hm h1 h2

theorem widths : (∀ k, k < 3 → Hsic.kernelWidth (rowsOf (xorX 1) [k]) = some (Real.sqrt (1 / 2 * (1 : ℕ)))) ∧
    Hsic.kernelWidth (rowsOf (xorX 1) [1, 2]) = some (Real.sqrt (1 / 2 * (1 : ℕ))) ∧
    Hsic.kernelWidth (rowsOf (xorX 1) [0, 2]) = some (Real.sqrt (1 / 2 * (1 : ℕ))) ∧
    Hsic.kernelWidth (rowsOf (xorX 1) [0, 1]) = some (Real.sqrt (1 / 2 * (1 : ℕ))) ∧
    Hsic.kernelWidth (rowsOf (xorX 2) [0]) = some (Real.sqrt (1 / 2 * (4 : ℕ))) ∧
    Hsic.kernelWidth (rowsOf (xorX 2) [1]) = some (Real.sqrt (1 / 2 * (1 : ℕ))) ∧
    Hsic.kernelWidth (rowsOf (xorX 2) [2]) = some (Real.sqrt (1 / 2 * (1 : ℕ))) ∧
    Hsic.kernelWidth (rowsOf (xorX 2) [1, 2]) = some (Real.sqrt (1 / 2 * (1 : ℕ))) ∧
    Hsic.kernelWidth (rowsOf (xorX 2) [0, 2]) = some (Real.sqrt (1 / 2 * (4 : ℕ))) ∧
    Hsic.kernelWidth (rowsOf (xorX 2) [0, 1]) = some (Real.sqrt (1 / 2 * (4 : ℕ))) := by
  refine ⟨fun k hk => ?_, ?_, ?_, ?_, ?_, ?_, ?_, ?_, ?_, ?_⟩
  · interval_cases k <;> exact width_rows (q := List.replicate 16 1) (by decide) (by decide) (by decide +kernel) (by decide) (by decide)
  · exact width_rows (q := List.replicate 16 1 ++ List.replicate 8 2) (by decide) (by decide) (by decide +kernel) (by decide) (by decide)
  · exact width_rows (q := List.replicate 16 1 ++ List.replicate 8 2) (by decide) (by decide) (by decide +kernel) (by decide) (by decide)
  · exact width_rows (q := List.replicate 16 1 ++ List.replicate 8 2) (by decide) (by decide) (by decide +kernel) (by decide) (by decide)
  · exact width_rows (q := List.replicate 16 4) (by decide) (by decide) (by decide +kernel) (by decide) (by decide)
  · exact width_rows (q := List.replicate 16 1) (by decide) (by decide) (by decide +kernel) (by decide) (by decide)
  · exact width_rows (q := List.replicate 16 1) (by decide) (by decide) (by decide +kernel) (by decide) (by decide)
  · exact width_rows (q := List.replicate 16 1 ++ List.replicate 8 2) (by decide) (by decide) (by decide +kernel) (by decide) (by decide)
  · exact width_rows (q := List.replicate 8 1 ++ List.replicate 8 4 ++ List.replicate 8 5) (by decide) (by decide) (by decide +kernel) (by decide) (by decide)
  · exact width_rows (q := List.replicate 8 1 ++ List.replicate 8 4 ++ List.replicate 8 5) (by decide) (by decide) (by decide +kernel) (by decide) (by decide)

theorem sgn_sums : (∀ j, j < 3 → ∑ r, sgn j r = 0) ∧ (∀ i j, i < 3 → j < 3 → i ≠ j → ∑ r, sgn i r * sgn j r = 0) ∧
    ∀ r, sgn 0 r * sgn 1 r * sgn 2 r = 1 := by
  refine ⟨fun j hj => ?_, fun i j hi hj hij => ?_, fun r => ?_⟩
  · interval_cases j <;> norm_num [Fin.sum_univ_eight, sgn, bit]
  · interval_cases i <;> interval_cases j <;> first | exact absurd rfl hij | norm_num [Fin.sum_univ_eight, sgn, bit]
  · fin_cases r <;> norm_num [sgn, bit]

theorem exp_width {x : ℝ} {m : ℕ} (hm : 0 < m) : -x / 2 / Real.sqrt (1 / 2 * m) ^ 2 = -(x / m) := by
  have : (0 : ℝ) < m := by exact_mod_cast hm
  rw [Real.sq_sqrt (by positivity)]
  field_simp

/-- The statistic of a column against the two others. -/
theorem stat_value (sf : ℝ → ℝ → ℝ → ℝ) {s k a b : ℕ} (hk : k < 3) (ha : a < 3) (hb : b < 3) (hka : k ≠ a) (hkb : k ≠ b) (hab : a ≠ b) {m m' : ℕ} (hm : 0 < m) (hm' : 0 < m')
    (h1 : Hsic.kernelWidth (rowsOf (xorX s) [k]) = some (Real.sqrt (1 / 2 * m))) (h2 : Hsic.kernelWidth (rowsOf (xorX s) [a, b]) = some (Real.sqrt (1 / 2 * m'))) :
    ∃ p, Hsic.test sf (rowsOf (xorX s) [k]) (rowsOf (xorX s) [a, b]) =
      .ok (some (8 * (half ((fac s k : ℝ) ^ 2 / m) * (half ((fac s a : ℝ) ^ 2 / m') * half ((fac s b : ℝ) ^ 2 / m')))), p) := by
  obtain ⟨g1, g2, g3⟩ := sgn_sums
  have e1 : Hsic.rbf (rowsOf (xorX s) [k]) (Real.sqrt (1 / 2 * m)) =
      fun i j => (1 - half ((fac s k : ℝ) ^ 2 / m)) + half ((fac s k : ℝ) ^ 2 / m) * (sgn k i * sgn k j) := by
    funext i j
    unfold Hsic.rbf
    rw [exp_width hm, dist_cols, ← kernel_two (sgn_cases k i) (sgn_cases k j)]
    congr 2
    have : ∑ x : Fin [k].length, (fac s ([k].get x) : ℝ) ^ 2 * ((1 - sgn ([k].get x) i * sgn ([k].get x) j) / 2) =
      (fac s k : ℝ) ^ 2 * ((1 - sgn k i * sgn k j) / 2) := Fin.sum_univ_one _
    rw [this]
    ring
  have e2 : Hsic.rbf (rowsOf (xorX s) [a, b]) (Real.sqrt (1 / 2 * m')) =
      fun i j => ((1 - half ((fac s a : ℝ) ^ 2 / m')) + half ((fac s a : ℝ) ^ 2 / m') * (sgn a i * sgn a j)) *
        ((1 - half ((fac s b : ℝ) ^ 2 / m')) + half ((fac s b : ℝ) ^ 2 / m') * (sgn b i * sgn b j)) := by
    funext i j
    unfold Hsic.rbf
    rw [exp_width hm', dist_cols, ← kernel_two (sgn_cases a i) (sgn_cases a j), ← kernel_two (sgn_cases b i) (sgn_cases b j), ← Real.exp_add]
    congr 1
    have : ∑ x : Fin [a, b].length, (fac s ([a, b].get x) : ℝ) ^ 2 * ((1 - sgn ([a, b].get x) i * sgn ([a, b].get x) j) / 2) =
      (fac s a : ℝ) ^ 2 * ((1 - sgn a i * sgn a j) / 2) + (fac s b : ℝ) ^ 2 * ((1 - sgn b i * sgn b j) / 2) := Fin.sum_univ_two _
    rw [this]
    ring
  have g4 : ∑ r, sgn k r * (sgn a r * sgn b r) = 8 := by
    have : ∀ r, sgn k r * (sgn a r * sgn b r) = 1 := by
      intro r
      rw [← g3 r]
      interval_cases k <;> interval_cases a <;> interval_cases b <;> first | omega | ring
    simp [this]
  unfold Hsic.test Hsic.testWith
  rw [if_neg (by norm_num), h1, h2]
  simp only [e1, e2, centred_one (g1 k hk), centred_two (g1 a ha) (g1 b hb) (g2 a b ha hb hab), stat_two (g2 k a hk ha hka) (g2 k b hk hb hkb) g4]
  exact ⟨_, rfl⟩

theorem xor_uncorrelated (s i j : ℕ) (hi : i < 3) (hj : j < 3) (hij : i ≠ j) :
    (8 : ℕ) * ∑ r, xorX s i r * xorX s j r = (∑ r, xorX s i r) * ∑ r, xorX s j r := by
  interval_cases i <;> interval_cases j <;> first | exact absurd rfl hij | (norm_num [Fin.sum_univ_eight, xorX, bit] <;> ring)

/-- Least squares explains nothing, so that the statistic is that of the column itself. -/
theorem xor_stat {reg : Regression 8} (hr : IsLinearFit reg) (sf : ℝ → ℝ → ℝ → ℝ) (s : ℕ) {k : ℕ} {l : List Nat} (hk : k < 3) (hl : ∀ x ∈ l, x < 3 ∧ k ≠ x)
    {v : ℝ} {p : Option ℝ} (ht : Hsic.test sf (rowsOf (xorX s) [k]) (rowsOf (xorX s) l) = .ok (some v, p)) : (testOf sf reg (xorX s) k l).1 = some v := by
  have hres : residual reg (xorX s) k l = fun r => xorX s k r - (∑ q, xorX s k q) / (8 : ℕ) := by
    funext r
    exact linear_residual hr (b := fun _ => 0) (ε := xorX s k) (fun r => by simp) (fun m => by
      obtain ⟨h1, h2⟩ := hl _ (List.get_mem l m)
      exact xor_uncorrelated s k _ hk h1 h2) r
  have := Hsic.C114_hsic_units sf (rowsOf (xorX s) [k]) (rowsOf (xorX s) l) 1 1 (fun _ => -((∑ q, xorX s k q) / (8 : ℕ))) (fun _ => 0) one_ne_zero one_ne_zero
  simp only [one_mul, add_zero] at this
  have e : Hsic.test sf (Mlhsicr.col (residual reg (xorX s) k l)) (rowsOf (xorX s) l) = .ok (some v, p) := by
    rw [hres, ← ht, ← this]
    congr 1
    funext r j
    have : j = ⟨0, by simp⟩ := Fin.ext (Nat.lt_one_iff.1 j.isLt)
    subst this
    rfl
  unfold testOf
  rw [e]

/-- The last variable of the order is the one with the least statistic. -/
theorem last_chosen (st : List Nat → Nat → Option ℝ) (pv : Nat → List Nat → Option ℝ) (alpha : ℝ) {k : Nat}
    (hk : (argmin ([0, 1, 2].map (st [0, 1, 2]))).bind (fun i => [0, 1, 2][i]?) = some k) :
    ∃ order B, Resit.fit st pv alpha 3 = some (order, B) ∧ order.getLast? = some k := by
  obtain ⟨pi, B, h1, h2, h3⟩ := Resit.fit_spec st pv alpha 3
  refine ⟨pi, B, h1, ?_⟩
  have hlen : pi.length = 3 := by rw [h2.length_eq]; rfl
  obtain ⟨a, b, c, rfl⟩ := List.length_eq_three.1 hlen
  have hc := (h3 [a, b] c [] rfl).1 (by simp)
  have e : (List.range 3).filter (fun x => decide (x ∈ [a, b] ++ [c])) = [0, 1, 2] := by
    rw [List.filter_eq_self.2 fun x hx => by simpa using h2.mem_iff.2 hx]
    rfl
  rw [e] at hc
  unfold Resit.Chosen at hc
  rw [hk] at hc
  simpa using hc.symm

/-- **C244.** With three columns the result depends on the units: three coins, the third of which is the exclusive or of the others, and least squares.  If the
first column is measured in a unit half as large, another variable is put at the end of the order. -/
theorem C244_violated {reg : Regression 8} (hr : IsLinearFit reg) (sf : ℝ → ℝ → ℝ → ℝ) (alpha : ℝ) :
    ∃ order A order' A', OtherUnits (fun j => if j = 0 then 2 else 1) (fun _ => 0) (xorX 1) (xorX 2) ∧ fit sf reg alpha 3 (xorX 1) = some (order, A) ∧
      fit sf reg alpha 3 (xorX 2) = some (order', A') ∧ order.getLast? = some 0 ∧ order'.getLast? = some 1 := by
  obtain ⟨w1, w2, w3, w4, w5, w6, w7, w8, w9, w10⟩ := widths
  have f0 : [0, 1, 2].filter (fun i => decide (i ≠ 0)) = [1, 2] := rfl
  have f1 : [0, 1, 2].filter (fun i => decide (i ≠ 1)) = [0, 2] := rfl
  have f2 : [0, 1, 2].filter (fun i => decide (i ≠ 2)) = [0, 1] := rfl
  have hpos : 0 < half 1 := by
    unfold half
    have : Real.exp (-1) < Real.exp 0 := Real.exp_lt_exp.2 (by norm_num)
    rw [Real.exp_zero] at this
    linarith
  have hlt : half (1 / 4) < half 1 := by
    unfold half
    have : Real.exp (-1) < Real.exp (-(1 / 4)) := Real.exp_lt_exp.2 (by norm_num)
    linarith
  have a0 : stat sf reg (xorX 1) [0, 1, 2] 0 = some (8 * (half 1 * (half 1 * half 1))) := by
    obtain ⟨p, hp⟩ := stat_value sf (s := 1) (k := 0) (a := 1) (b := 2) (by omega) (by omega) (by omega) (by omega) (by omega) (by omega) one_pos one_pos (w1 0 (by omega)) w2
    have := xor_stat hr sf 1 (by omega) (by decide) hp
    unfold stat
    rw [f0, this]
    norm_num [fac]
  have a1 : stat sf reg (xorX 1) [0, 1, 2] 1 = some (8 * (half 1 * (half 1 * half 1))) := by
    obtain ⟨p, hp⟩ := stat_value sf (s := 1) (k := 1) (a := 0) (b := 2) (by omega) (by omega) (by omega) (by omega) (by omega) (by omega) one_pos one_pos (w1 1 (by omega)) w3
    have := xor_stat hr sf 1 (by omega) (by decide) hp
    unfold stat
    rw [f1, this]
    norm_num [fac]
  have a2 : stat sf reg (xorX 1) [0, 1, 2] 2 = some (8 * (half 1 * (half 1 * half 1))) := by
    obtain ⟨p, hp⟩ := stat_value sf (s := 1) (k := 2) (a := 0) (b := 1) (by omega) (by omega) (by omega) (by omega) (by omega) (by omega) one_pos one_pos (w1 2 (by omega)) w4
    have := xor_stat hr sf 1 (by omega) (by decide) hp
    unfold stat
    rw [f2, this]
    norm_num [fac]
  have b0 : stat sf reg (xorX 2) [0, 1, 2] 0 = some (8 * (half 1 * (half 1 * half 1))) := by
    obtain ⟨p, hp⟩ := stat_value sf (s := 2) (k := 0) (a := 1) (b := 2) (by omega) (by omega) (by omega) (by omega) (by omega) (by omega) four_pos one_pos w5 w8
    have := xor_stat hr sf 2 (by omega) (by decide) hp
    unfold stat
    rw [f0, this]
    norm_num [fac]
  have b1 : stat sf reg (xorX 2) [0, 1, 2] 1 = some (8 * (half 1 * (half 1 * half (1 / 4)))) := by
    obtain ⟨p, hp⟩ := stat_value sf (s := 2) (k := 1) (a := 0) (b := 2) (by omega) (by omega) (by omega) (by omega) (by omega) (by omega) one_pos four_pos w6 w9
    have := xor_stat hr sf 2 (by omega) (by decide) hp
    unfold stat
    rw [f1, this]
    norm_num [fac]
  have b2 : stat sf reg (xorX 2) [0, 1, 2] 2 = some (8 * (half 1 * (half 1 * half (1 / 4)))) := by
    obtain ⟨p, hp⟩ := stat_value sf (s := 2) (k := 2) (a := 0) (b := 1) (by omega) (by omega) (by omega) (by omega) (by omega) (by omega) one_pos four_pos w7 w10
    have := xor_stat hr sf 2 (by omega) (by decide) hp
    unfold stat
    rw [f2, this]
    norm_num [fac]
  have hcmp : 8 * (half 1 * (half 1 * half (1 / 4))) < 8 * (half 1 * (half 1 * half 1)) := by
    have := mul_lt_mul_of_pos_left (mul_lt_mul_of_pos_left hlt hpos) hpos
    linarith
  obtain ⟨order, A, h1, h2⟩ := last_chosen (stat sf reg (xorX 1)) (pval sf reg (xorX 1)) alpha (k := 0) (by
    simp only [List.map_cons, List.map_nil, a0, a1, a2]
    simp [argmin, argmax, argmaxGo])
  obtain ⟨order', A', h3, h4⟩ := last_chosen (stat sf reg (xorX 2)) (pval sf reg (xorX 2)) alpha (k := 1) (by
    simp only [List.map_cons, List.map_nil, b0, b1, b2]
    simp only [argmin, argmax, argmaxGo, List.map_cons, List.map_nil, Option.map_some, neg_lt_neg_iff, hcmp, if_true, lt_irrefl, if_false]
    rfl)
  refine ⟨order, A, order', A', fun j r => ?_, h1, h3, h2, h4⟩
  show (if j = 0 then ((2 : ℕ) : ℝ) else 1) * (bit j r : ℝ) = (if j = 0 then 2 else 1) * ((if j = 0 then ((1 : ℕ) : ℝ) else 1) * (bit j r : ℝ)) + 0
  split_ifs <;> push_cast <;> ring

/-- There is such a regression (least squares). -/
example (sf : ℝ → ℝ → ℝ → ℝ) : ∃ (reg : Regression 8) (order order' : List Nat) (A A' : Nat → Nat → ℚ), fit sf reg (1 / 100) 3 (xorX 1) = some (order, A) ∧
    fit sf reg (1 / 100) 3 (xorX 2) = some (order', A') ∧ order ≠ order' := by
  obtain ⟨reg, hr⟩ := exists_linearFit (N := 8)
  obtain ⟨o, A, o', A', _, h1, h2, h3, h4⟩ := C244_violated hr sf (1 / 100)
  refine ⟨reg, o, o', A, A', h1, h2, fun h => ?_⟩
  rw [h, h4] at h3
  simp at h3

/-- Regression by group means follows units and rows. -/
theorem groupMean_follows : RegUnits (N := N) groupMean ∧ RegRows (N := N) groupMean := by
  constructor
  · intro q Z y a b s t ha hs r
    have e : ∀ p : Fin N, ((fun k => a k * Z p k + b k) = fun k => a k * Z r k + b k) ↔ Z p = Z r := by
      intro p
      constructor
      · intro h
        funext k
        exact mul_left_cancel₀ (ha k) (add_right_cancel (congrFun h k))
      · intro h
        rw [h]
    have hpos : (0 : ℝ) < ∑ p, (if Z p = Z r then (1 : ℝ) else 0) :=
      Finset.sum_pos' (fun p _ => by split <;> norm_num) ⟨r, Finset.mem_univ r, by simp⟩
    unfold groupMean
    simp only [e]
    rw [div_eq_iff hpos.ne', add_mul, mul_assoc, div_mul_cancel₀ _ hpos.ne', Finset.mul_sum, Finset.mul_sum, ← Finset.sum_add_distrib]
    refine Finset.sum_congr rfl fun p _ => ?_
    split <;> ring
  · intro q Z y σ r
    unfold groupMean
    rw [← Equiv.sum_comp σ (fun p => if Z p = Z (σ r) then y p else 0), ← Equiv.sum_comp σ (fun p => if Z p = Z (σ r) then (1 : ℝ) else 0)]

/-- Two columns in other units, and the rows in reverse order. -/
example (sf : ℝ → ℝ → ℝ → ℝ) (alpha : ℝ) : fit sf groupMean alpha 2 (fun j r => (if j = 0 then 1 else -3) * coinX j r + 7) = fit sf groupMean alpha 2 coinX ∧
    fit sf groupMean alpha 2 (fun j r => coinX j (Fin.revPerm r)) = fit sf groupMean alpha 2 coinX :=
  ⟨C244_two groupMean_follows.1 (c := fun j => if j = 0 then 1 else -3) (o := fun _ => 7) (fun j => by split <;> norm_num) (fun _ _ => rfl) sf alpha,
    C244_rows groupMean_follows.2 coinX (fun i => ⟨fun _ => by have := (Fin.revPerm i).isLt; omega, fun _ => by have := i.isLt; omega⟩) sf alpha 2⟩

end Verif.ResitData
