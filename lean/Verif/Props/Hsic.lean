import Verif.Proofs.Hsic
import Verif.Spec.Hsic

/-! Properties of the HSIC test, `lingam/hsic.py`. -/
set_option autoImplicit false
set_option linter.unusedSectionVars false
namespace Verif.Hsic
open Finset

/-! ### C113: the two variables play the same role -/

theorem testStat_comm {n : Nat} (K L : Fin n → Fin n → ℝ) : testStat K L = testStat L K := by
  unfold testStat
  rw [Finset.sum_comm]
  congr 1
  exact Finset.sum_congr rfl (fun i _ => Finset.sum_congr rfl (fun j _ => mul_comm _ _))

theorem nullVar_comm {n : Nat} (K L : Fin n → Fin n → ℝ) : nullVar K L = nullVar L K := by
  have h : ∀ i j, (1 / 6 * K i j * L i j) ^ 2 = (1 / 6 * L i j * K i j) ^ 2 := fun i j => by ring
  unfold nullVar
  simp only [h]

theorem nullMean_comm {n : Nat} (K L : Fin n → Fin n → ℝ) : nullMean K L = nullMean L K := by
  unfold nullMean; ring

/-- Exchanging the two arguments changes neither the statistic nor the p-value. -/
theorem C113_hsic_symmetric {n d e : Nat} (sf : ℝ → ℝ → ℝ → ℝ) (X : Dat n d) (Y : Dat n e) :
    test sf X Y = test sf Y X := by
  unfold test testWith
  split
  · rfl
  · cases kernelWidth X <;> cases kernelWidth Y <;> try rfl
    simp only [testStat_comm (centred (rbf X _)), nullVar_comm (centred (rbf X _)), nullMean_comm (rbf X _)]

/-! ### C114: units of measurement do not matter -/

/-- Shifting the columns and rescaling by a common nonzero factor changes neither the statistic nor the p-value. -/
theorem C114_hsic_units {n d e : Nat} (sf : ℝ → ℝ → ℝ → ℝ) (X : Dat n d) (Y : Dat n e) (a c : ℝ) (b : Fin d → ℝ)
    (b' : Fin e → ℝ) (ha : a ≠ 0) (hc : c ≠ 0) :
    test sf (fun i k => a * X i k + b k) (fun i k => c * Y i k + b' k) = test sf X Y := by
  unfold test testWith
  rw [kernelWidth_affine X a ha b, kernelWidth_affine Y c hc b']
  split
  · rfl
  · cases kernelWidth X <;> cases kernelWidth Y <;> try rfl
    simp only [Option.map_some, rbf_affine X a ha b, rbf_affine Y c hc b']

/-- The hypotheses are met by, for example, a change from degrees Celsius to degrees Fahrenheit of one column. -/
example : test (n := 6) (d := 1) (e := 1) (fun _ _ _ => 0) (fun i _ => 9 / 5 * (i.val : ℝ) + 32) (fun i _ => -1 * (i.val : ℝ) ^ 2 + 0)
    = test (n := 6) (d := 1) (e := 1) (fun _ _ _ => 0) (fun i _ => (i.val : ℝ)) (fun i _ => (i.val : ℝ) ^ 2) :=
  C114_hsic_units _ (fun i _ => (i.val : ℝ)) (fun i _ => (i.val : ℝ) ^ 2) (9 / 5) (-1) (fun _ => 32) (fun _ => 0)
    (by norm_num) (by norm_num)

/-! ### C115: the order of the observations -/

/-- Reordering the observations changes nothing as long as the first 100 observations remain among the first 100. -/
theorem C115_hsic_row_order_partial {n d e : Nat} (sf : ℝ → ℝ → ℝ → ℝ) (X : Dat n d) (Y : Dat n e)
    (σ : Equiv.Perm (Fin n)) (hσ : ∀ i : Fin n, i.val < 100 ↔ (σ i).val < 100) :
    test sf (fun i => X (σ i)) (fun i => Y (σ i)) = test sf X Y := by
  unfold test testWith
  rw [kernelWidth_perm X σ hσ, kernelWidth_perm Y σ hσ]
  split
  · rfl
  · cases kernelWidth X with
    | none => rfl
    | some wx =>
      cases kernelWidth Y with
      | none => rfl
      | some wy =>
        have hx : rbf (fun i => X (σ i)) wx = fun i j => rbf X wx (σ i) (σ j) := rfl
        have hy : rbf (fun i => Y (σ i)) wy = fun i j => rbf Y wy (σ i) (σ j) := rfl
        simp only [hx, hy, centred_perm, testStat_perm, nullVar_perm]
        rw [nullMean, offMean_perm, offMean_perm, ← nullMean]

/-- With at most 100 observations the order of the observations is irrelevant. -/
theorem C115_hsic_row_order_small_partial {n d e : Nat} (hn : n ≤ 100) (sf : ℝ → ℝ → ℝ → ℝ) (X : Dat n d) (Y : Dat n e)
    (σ : Equiv.Perm (Fin n)) : test sf (fun i => X (σ i)) (fun i => Y (σ i)) = test sf X Y :=
  C115_hsic_row_order_partial sf X Y σ
    (fun i => ⟨fun _ => by have := (σ i).isLt; omega, fun _ => by have := i.isLt; omega⟩)

/-- Swapping the first two of six observations. -/
example (sf : ℝ → ℝ → ℝ → ℝ) : test (n := 6) (d := 1) (e := 1) sf (fun i _ => ((Equiv.swap (0 : Fin 6) 1) i).val)
      (fun i _ => (((Equiv.swap (0 : Fin 6) 1) i).val : ℝ) ^ 2)
    = test (n := 6) (d := 1) (e := 1) sf (fun i _ => (i.val : ℝ)) (fun i _ => (i.val : ℝ) ^ 2) :=
  C115_hsic_row_order_small_partial (by norm_num) sf (fun i _ => (i.val : ℝ)) (fun i _ => (i.val : ℝ) ^ 2) (Equiv.swap 0 1)

/-- The statistic is reported as NaN exactly if one of the two variables is constant over the first 100 observations. -/
theorem C117_hsic_nan {n d e : Nat} (hn : 3 < n) (sf : ℝ → ℝ → ℝ → ℝ) (X : Dat n d) (Y : Dat n e) :
    test sf X Y = .ok (none, none) ↔
      (∀ i j : Fin n, i.val < 100 → j.val < 100 → X i = X j) ∨ (∀ i j : Fin n, i.val < 100 → j.val < 100 → Y i = Y j) := by
  rw [← kernelWidth_eq_none, ← kernelWidth_eq_none]
  unfold test testWith
  rw [if_neg (by omega)]
  cases kernelWidth X <;> cases kernelWidth Y <;> simp

/-- A variable that varies only after the first 100 observations: no value is computed although it is not constant. -/
theorem C117_hsic_late_variation {n : Nat} (hn : 100 < n) (sf : ℝ → ℝ → ℝ → ℝ) (Y : Dat n 1) :
    ∃ X : Dat n 1, (∃ i j, X i ≠ X j) ∧ test sf X Y = .ok (none, none) := by
  refine ⟨fun i _ => if i.val = 100 then 1 else 0, ⟨⟨0, by omega⟩, ⟨100, hn⟩, ?_⟩, ?_⟩
  · intro h
    have := congrFun h 0
    simp at this
  · rw [C117_hsic_nan (by omega)]
    left
    intro i j hi hj
    funext _
    rw [if_neg (by omega), if_neg (by omega)]

/-- With more than 100 observations the order matters: for every such number there are data and a reordering of them for
which the statistic is a number in one case and NaN in the other. -/
theorem C115_hsic_row_order_violated {n : Nat} (hn : 100 < n) (sf : ℝ → ℝ → ℝ → ℝ) :
    ∃ (X Y : Dat n 1) (σ : Equiv.Perm (Fin n)), test sf X Y = .ok (none, none) ∧
      test sf (fun i => X (σ i)) (fun i => Y (σ i)) ≠ .ok (none, none) := by
  let X : Dat n 1 := fun i _ => if i.val = 100 then 1 else 0
  let Y : Dat n 1 := fun i _ => (i.val : ℝ)
  let σ : Equiv.Perm (Fin n) := Equiv.swap ⟨0, by omega⟩ ⟨100, hn⟩
  have h0 : σ ⟨0, by omega⟩ = ⟨100, hn⟩ := Equiv.swap_apply_left _ _
  have h1 : σ ⟨1, by omega⟩ = ⟨1, by omega⟩ := Equiv.swap_apply_of_ne_of_ne (by simp) (by simp)
  have h2 : σ ⟨2, by omega⟩ = ⟨2, by omega⟩ := Equiv.swap_apply_of_ne_of_ne (by simp) (by simp)
  refine ⟨X, Y, σ, ?_, ?_⟩
  · rw [C117_hsic_nan (by omega)]
    left
    intro i j hi hj
    funext _
    simp only [X]
    rw [if_neg (by omega), if_neg (by omega)]
  · rw [Ne, C117_hsic_nan (by omega)]
    rintro (h | h)
    · have := congrFun (h ⟨0, by omega⟩ ⟨1, by omega⟩ (by simp) (by simp)) 0
      simp [X, h0, h1] at this
    · have := congrFun (h ⟨1, by omega⟩ ⟨2, by omega⟩ (by simp) (by simp)) 0
      simp [Y, h1, h2] at this

/-! ### C116: what is computed -/

theorem rbf_gauss {n d : Nat} (X : Dat n d) (w : ℝ) : rbf X w = fun i j => Spec.gauss w (X i) (X j) := by
  funext i j
  unfold rbf Spec.gauss
  rw [dist_eq, div_div]

theorem sum_centred_mul {n : Nat} (hn : 0 < n) (K L : Fin n → Fin n → ℝ) (hK : ∀ i j, K i j = K j i)
    (hL : ∀ i j, L i j = L j i) :
    ∑ i, ∑ j, centred K i j * centred L i j =
      (∑ i, ∑ j, K i j * L i j) + (∑ i, ∑ j, K i j) * (∑ i, ∑ j, L i j) / n ^ 2
        - 2 * (∑ i, (∑ j, K i j) * (∑ j, L i j)) / n := by
  have hn' : (n : ℝ) ≠ 0 := by exact_mod_cast hn.ne'
  have cK : ∀ j, ∑ a, K a j = ∑ b, K j b := fun j => Finset.sum_congr rfl (fun a _ => hK a j)
  have cL : ∀ j, ∑ a, L a j = ∑ b, L j b := fun j => Finset.sum_congr rfl (fun a _ => hL a j)
  set r : Fin n → ℝ := fun i => ∑ b, K i b with hr
  set s : Fin n → ℝ := fun i => ∑ b, L i b with hs
  set A := ∑ i, r i with hA
  set B := ∑ i, s i with hB
  have dK : ∀ i j, centred K i j = K i j - (r j + r i) / n + A / n ^ 2 := by
    intro i j; unfold centred; rw [cK j]
  have dL : ∀ i j, centred L i j = L i j - (s j + s i) / n + B / n ^ 2 := by
    intro i j; unfold centred; rw [cL j]
  -- every row of the centred matrix `L` sums to zero
  have zL : ∀ i, ∑ j, centred L i j = 0 := by
    intro i
    simp only [dL, Finset.sum_add_distrib, Finset.sum_sub_distrib, ← Finset.sum_div]
    simp only [Finset.sum_const, Finset.card_univ, Fintype.card_fin, nsmul_eq_mul]
    have : ∑ j, L i j = s i := rfl
    rw [this, ← hB]
    field_simp
    ring
  have zL' : ∀ j, ∑ i, centred L i j = 0 := by
    intro j
    rw [← zL j]
    refine Finset.sum_congr rfl (fun i _ => ?_)
    rw [dL, dL, hL i j]; ring
  have e1 : ∑ i, ∑ j, centred K i j * centred L i j = ∑ i, ∑ j, K i j * centred L i j := by
    have : ∀ i j, centred K i j * centred L i j =
        K i j * centred L i j - r j / n * centred L i j - r i / n * centred L i j + A / n ^ 2 * centred L i j := by
      intro i j; rw [dK]; ring
    simp only [this, Finset.sum_add_distrib, Finset.sum_sub_distrib, ← Finset.mul_sum, zL]
    have h0 : ∑ i, ∑ j, r j / n * centred L i j = 0 := by
      rw [Finset.sum_comm]
      simp only [← Finset.mul_sum, zL', mul_zero, Finset.sum_const_zero]
    rw [h0]; simp
  rw [e1]
  have e2 : ∀ i j, K i j * centred L i j = K i j * L i j - K i j * s j / n - K i j * s i / n + K i j * B / n ^ 2 := by
    intro i j; rw [dL]; ring
  simp only [e2, Finset.sum_add_distrib, Finset.sum_sub_distrib, ← Finset.sum_div, ← Finset.sum_mul]
  have e3 : ∑ i, ∑ j, K i j * s j = ∑ i, r i * s i := by
    rw [Finset.sum_comm]
    refine Finset.sum_congr rfl (fun j _ => ?_)
    rw [← Finset.sum_mul, cK j]
  rw [e3]
  have e4 : ∑ i, ∑ j, K i j = A := rfl
  rw [e4]
  have e5 : ∑ i, (∑ j, K i j) * s i = ∑ i, r i * s i := rfl
  rw [e5]
  ring

theorem testStat_eq {n d e : Nat} (hn : 0 < n) (X : Dat n d) (Y : Dat n e) (wx wy : ℝ) :
    testStat (centred (rbf X wx)) (centred (rbf Y wy)) = n * Spec.criterion (Spec.gauss wx) (Spec.gauss wy) X Y := by
  have hn' : (n : ℝ) ≠ 0 := by exact_mod_cast hn.ne'
  have hK := (psd_rbf X wx).1
  have hL := (psd_rbf Y wy).1
  have h1 : ∑ i, ∑ j, centred (rbf X wx) j i * centred (rbf Y wy) i j =
      ∑ i, ∑ j, centred (rbf X wx) i j * centred (rbf Y wy) i j := by
    refine Finset.sum_congr rfl (fun i _ => Finset.sum_congr rfl (fun j _ => ?_))
    rw [(psd_centred (psd_rbf X wx)).1 j i]
  unfold testStat Spec.criterion
  rw [h1, sum_centred_mul hn _ _ hK hL]
  simp only [rbf_gauss]
  field_simp

theorem nullMean_eq {n d e : Nat} (X : Dat n d) (Y : Dat n e) (wx wy : ℝ) :
    nullMean (rbf X wx) (rbf Y wy) =
      (1 - Spec.offDiagonal (Spec.gauss wx) X) * (1 - Spec.offDiagonal (Spec.gauss wy) Y) / n := by
  have h : ∀ {d : Nat} (X : Dat n d) (w : ℝ), offMean (rbf X w) = Spec.offDiagonal (Spec.gauss w) X := by
    intro d X w
    unfold offMean Spec.offDiagonal
    rw [rbf_gauss, div_div, one_div, div_eq_inv_mul]
  unfold nullMean
  rw [h, h]; ring

theorem nullVar_eq {n d e : Nat} (X : Dat n d) (Y : Dat n e) (wx wy : ℝ) :
    nullVar (centred (rbf X wx)) (centred (rbf Y wy)) = Spec.nullVariance (Spec.gauss wx) (Spec.gauss wy) X Y := by
  have hc : ∀ {d : Nat} (X : Dat n d) (w : ℝ), centred (rbf X w) = Spec.centredKernel (Spec.gauss w) X := by
    intro d X w
    funext i j
    unfold centred Spec.centredKernel
    rw [rbf_gauss]; ring
  unfold nullVar Spec.nullVariance
  rw [hc, hc]
  set F := Spec.centredKernel (Spec.gauss wx) X
  set G := Spec.centredKernel (Spec.gauss wy) Y
  have h1 : (∑ i, ∑ j, (1 / 6 * F i j * G i j) ^ 2) - ∑ i, (1 / 6 * F i i * G i i) ^ 2 =
      1 / 36 * ∑ i, ∑ j, if i = j then 0 else (F i j * G i j) ^ 2 := by
    rw [← Finset.sum_sub_distrib, Finset.mul_sum]
    refine Finset.sum_congr rfl (fun i _ => ?_)
    have h2 : (1 / 6 * F i i * G i i) ^ 2 = ∑ j, if i = j then (1 / 6 * F i j * G i j) ^ 2 else 0 := by simp
    rw [h2, ← Finset.sum_sub_distrib, Finset.mul_sum]
    refine Finset.sum_congr rfl (fun j _ => ?_)
    split <;> ring
  rw [h1]
  simp only [div_eq_mul_inv, mul_inv, one_mul]
  ring

theorem exists_ne_of_width {n d : Nat} {X : Dat n d} {w : ℝ} (h : kernelWidth X = some w) : ∃ i j, X i ≠ X j := by
  by_contra hc
  push Not at hc
  rw [(kernelWidth_eq_none X).2 (fun i j _ _ => hc i j)] at h
  cases h

theorem sorted_countP {l : List ℝ} (k : Nat) (q : ℝ → Bool)
    (h : ∀ i (hi : i < l.length), k ≤ i → q l[i] = false) : l.countP q ≤ k := by
  rw [← List.take_append_drop k l, List.countP_append]
  have h1 : (l.take k).countP q ≤ k := List.countP_le_length.trans (by rw [List.length_take]; omega)
  have h2 : (l.drop k).countP q = 0 := by
    rw [List.countP_eq_zero]
    intro a ha
    obtain ⟨i, hi, rfl⟩ := List.mem_iff_getElem.1 ha
    rw [List.getElem_drop, h _ _ (by omega)]
    exact Bool.false_ne_true
  omega

theorem median_isMedian {s : Multiset ℝ} {m : ℝ} (h : median s = some m) : Spec.IsMedian s m := by
  have hsort := Multiset.pairwise_sort s (· ≤ ·)
  have hse : ((s.sort (· ≤ ·) : List ℝ) : Multiset ℝ) = s := Multiset.sort_eq s (· ≤ ·)
  unfold median at h
  simp only at h
  split at h
  · cases h
  · rename_i hl
    set l := s.sort (· ≤ ·) with hldef
    have hmono : ∀ i j (hi : i < l.length) (hj : j < l.length), i ≤ j → l[i] ≤ l[j] := by
      intro i j hi hj hij
      rcases hij.lt_or_eq with hlt | rfl
      · exact List.pairwise_iff_getElem.1 hsort i j hi hj hlt
      · exact le_refl _
    have hi1 : (l.length - 1) / 2 < l.length := by omega
    have hi2 : l.length / 2 < l.length := by omega
    have hm : m = (l[(l.length - 1) / 2] + l[l.length / 2]) / 2 := by
      rw [List.getD_eq_getElem?_getD, List.getD_eq_getElem?_getD, List.getElem?_eq_getElem hi1,
        List.getElem?_eq_getElem hi2] at h
      exact (Option.some.inj h).symm
    have hle := hmono _ _ hi1 hi2 (by omega)
    have hcard : s.card = l.length := by rw [← hse, Multiset.coe_card]
    refine ⟨by omega, ?_, ?_⟩
    · rw [← hse, Multiset.coe_countP, Multiset.coe_card]
      have := sorted_countP (l.length / 2) (fun x => decide (x < m)) (by
        intro i hi hk
        have h1 := hmono _ _ hi2 hi hk
        rw [decide_eq_false_iff_not, not_lt]; linarith)
      omega
    · rw [← hse, Multiset.coe_countP, Multiset.coe_card]
      have h2 : l.countP (fun x => decide (m < x)) + (l.length + 1) / 2 ≤ l.length := by
        rw [← List.take_append_drop ((l.length + 1) / 2) l, List.countP_append]
        have h3 : (l.take ((l.length + 1) / 2)).countP (fun x => decide (m < x)) = 0 := by
          rw [List.countP_eq_zero]
          intro a ha
          obtain ⟨i, hi, rfl⟩ := List.mem_iff_getElem.1 ha
          rw [List.length_take] at hi
          have h1 := hmono i ((l.length - 1) / 2) (by omega) hi1 (by omega)
          rw [List.getElem_take, decide_eq_true_iff, not_lt]; linarith
        have h4 : (l.drop ((l.length + 1) / 2)).countP (fun x => decide (m < x)) ≤ l.length - (l.length + 1) / 2 :=
          List.countP_le_length.trans (by rw [List.length_drop])
        rw [List.take_append_drop]
        omega
      omega

theorem positiveDists_first {n d : Nat} (X : Dat n d) : positiveDists (firstRows X) = Spec.distances 100 X := by
  unfold positiveDists Spec.distances
  let f : Fin (min n 100) × Fin (min n 100) ↪ Fin n × Fin n :=
    (Fin.castLEEmb (Nat.min_le_left n 100)).prodMap (Fin.castLEEmb (Nat.min_le_left n 100))
  have : (Finset.univ : Finset (Fin n × Fin n)).filter
      (fun p => p.1 < p.2 ∧ p.2.val < 100 ∧ 0 < ∑ k, (X p.1 k - X p.2 k) ^ 2) =
      ((univ : Finset (Fin (min n 100) × Fin (min n 100))).filter
        (fun p => p.1 < p.2 ∧ 0 < dist (firstRows X) p.1 p.2)).map f := by
    ext ⟨i, j⟩
    simp only [mem_filter, mem_univ, true_and, Finset.mem_map]
    constructor
    · rintro ⟨h1, h2, h3⟩
      have h1' : i.val < j.val := h1
      refine ⟨(⟨i.val, by omega⟩, ⟨j.val, by omega⟩), ⟨h1, ?_⟩, rfl⟩
      rw [dist_eq]; exact h3
    · rintro ⟨⟨a, b⟩, ⟨h1, h2⟩, h⟩
      cases h
      rw [dist_eq] at h2
      have hb := b.isLt
      exact ⟨h1, by show b.val < 100; omega, h2⟩
  rw [this, Finset.map_val, Multiset.map_map]
  refine Multiset.map_congr rfl ?_
  rintro ⟨a, b⟩ _
  exact dist_eq _ a b

/-- The square of the width is half the median of the squared distances between the first 100 observations. -/
theorem width_median {n d : Nat} {X : Dat n d} {w : ℝ} (h : kernelWidth X = some w) :
    0 < w ∧ Spec.IsMedian (Spec.distances 100 X) (2 * w ^ 2) := by
  refine ⟨kernelWidth_pos h, ?_⟩
  unfold kernelWidth at h
  rw [Option.map_eq_some_iff] at h
  obtain ⟨m, hm, rfl⟩ := h
  have hpos : 0 < m := by
    refine median_pos ?_ hm
    intro x hx
    unfold positiveDists at hx
    rw [Multiset.mem_map] at hx
    obtain ⟨p, hp, rfl⟩ := hx
    exact ((Finset.mem_filter.1 hp).2).2
  have := median_isMedian hm
  rw [positiveDists_first] at this
  rwa [Real.sq_sqrt (by linarith), show 2 * (1 / 2 * m) = m by ring]

/-- Whenever a statistic is reported it is `n` times the V-statistic estimate of the criterion with Gaussian kernels of
positive widths, and it is never negative.  The widths are taken from the medians of the distances between the first 100
observations. -/
theorem C116_hsic_statistic {n d e : Nat} (sf : ℝ → ℝ → ℝ → ℝ) (X : Dat n d) (Y : Dat n e) (s : ℝ) (p : Option ℝ)
    (h : test sf X Y = .ok (some s, p)) :
    0 ≤ s ∧ ∃ wx wy, 0 < wx ∧ 0 < wy ∧
      Spec.IsMedian (Spec.distances 100 X) (2 * wx ^ 2) ∧ Spec.IsMedian (Spec.distances 100 Y) (2 * wy ^ 2) ∧
      s = n * Spec.criterion (Spec.gauss wx) (Spec.gauss wy) X Y := by
  unfold test testWith at h
  split at h
  · cases h
  · rename_i hn
    cases hx : kernelWidth X with
    | none => simp [hx] at h
    | some wx =>
      cases hy : kernelWidth Y with
      | none => simp [hx, hy] at h
      | some wy =>
        simp only [hx, hy, Except.ok.injEq, Prod.mk.injEq, Option.some.injEq] at h
        obtain ⟨rfl, _⟩ := h
        exact ⟨testStat_nonneg (psd_centred (psd_rbf X wx)) (psd_centred (psd_rbf Y wy)), wx, wy, kernelWidth_pos hx,
          kernelWidth_pos hy, (width_median hx).2, (width_median hy).2, testStat_eq (by omega) X Y wx wy⟩

/-- Whenever a p-value is reported it is the tail probability at the statistic of a gamma distribution with positive shape
`a` and positive scale `b`.  The mean `a b` of that distribution is the product of one minus the average kernel values
over pairs of different observations, and its variance `a b^2` is `n^2` times the estimated variance. -/
theorem C116_hsic_p_value {n d e : Nat} (sf : ℝ → ℝ → ℝ → ℝ) (X : Dat n d) (Y : Dat n e) (s p : ℝ)
    (h : test sf X Y = .ok (some s, some p)) :
    ∃ wx wy a b, 0 < wx ∧ 0 < wy ∧
      Spec.IsMedian (Spec.distances 100 X) (2 * wx ^ 2) ∧ Spec.IsMedian (Spec.distances 100 Y) (2 * wy ^ 2) ∧ 0 < a ∧ 0 < b ∧ p = sf s a b ∧
      a * b = (1 - Spec.offDiagonal (Spec.gauss wx) X) * (1 - Spec.offDiagonal (Spec.gauss wy) Y) ∧
      a * b ^ 2 = n ^ 2 * Spec.nullVariance (Spec.gauss wx) (Spec.gauss wy) X Y := by
  unfold test testWith at h
  split at h
  · cases h
  · rename_i hn
    cases hx : kernelWidth X with
    | none => simp [hx] at h
    | some wx =>
      cases hy : kernelWidth Y with
      | none => simp [hx, hy] at h
      | some wy =>
        simp only [hx, hy, Except.ok.injEq, Prod.mk.injEq, Option.some.injEq] at h
        obtain ⟨rfl, hp⟩ := h
        split at hp
        · cases hp
        · rename_i hv
          push Not at hv
          have hn' : (4 : ℝ) ≤ n := by exact_mod_cast (by omega : 4 ≤ n)
          have hv0 := lt_of_le_of_ne (nullVar_nonneg (by omega) (centred (rbf X wx)) (centred (rbf Y wy))) (Ne.symm hv.1)
          have hm0 : 0 < nullMean (rbf X wx) (rbf Y wy) := by
            have h1 := offMean_rbf X (kernelWidth_pos hx) (by omega) (exists_ne_of_width hx)
            have h2 := offMean_rbf Y (kernelWidth_pos hy) (by omega) (exists_ne_of_width hy)
            have : nullMean (rbf X wx) (rbf Y wy) = 1 / n * ((1 - offMean (rbf X wx)) * (1 - offMean (rbf Y wy))) := by
              unfold nullMean; ring
            rw [this]
            exact mul_pos (by positivity) (mul_pos (by linarith) (by linarith))
          have hmeq := nullMean_eq X Y wx wy
          refine ⟨wx, wy, _, _, kernelWidth_pos hx, kernelWidth_pos hy, (width_median hx).2, (width_median hy).2, ?_, ?_, (Option.some.inj hp).symm, ?_, ?_⟩
          · positivity
          · positivity
          · have : (1 - Spec.offDiagonal (Spec.gauss wx) X) * (1 - Spec.offDiagonal (Spec.gauss wy) Y)
                = nullMean (rbf X wx) (rbf Y wy) * n := by
              rw [hmeq]; field_simp
            rw [this]; field_simp
          · rw [← nullVar_eq]; field_simp

/-- The p-value lies in `[0, 1]` if the survival function of the gamma distribution does. -/
theorem C116_hsic_p_range {n d e : Nat} (sf : ℝ → ℝ → ℝ → ℝ)
    (hsf : ∀ x a b, 0 ≤ x → 0 < a → 0 < b → 0 ≤ sf x a b ∧ sf x a b ≤ 1) (X : Dat n d) (Y : Dat n e) (s p : ℝ)
    (h : test sf X Y = .ok (some s, some p)) : 0 ≤ p ∧ p ≤ 1 := by
  obtain ⟨hs, _⟩ := C116_hsic_statistic sf X Y s _ h
  obtain ⟨_, _, a, b, _, _, _, _, ha, hb, rfl, _⟩ := C116_hsic_p_value sf X Y s p h
  exact hsf s a b hs ha hb

/-- A statistic is reported for, for example, six observations of two variables. -/
example (sf : ℝ → ℝ → ℝ → ℝ) : ∃ s p, test (n := 6) (d := 1) (e := 1) sf (fun i _ => (i.val : ℝ))
    (fun i _ => (i.val : ℝ) ^ 2) = .ok (some s, p) := by
  have hx : kernelWidth (n := 6) (d := 1) (fun i _ => (i.val : ℝ)) ≠ none := by
    rw [Ne, kernelWidth_eq_none]; intro h
    have := congrFun (h 0 1 (by decide) (by decide)) 0
    simp at this
  have hy : kernelWidth (n := 6) (d := 1) (fun i _ => (i.val : ℝ) ^ 2) ≠ none := by
    rw [Ne, kernelWidth_eq_none]; intro h
    have := congrFun (h 0 1 (by decide) (by decide)) 0
    simp at this
  obtain ⟨wx, hx⟩ := Option.ne_none_iff_exists'.1 hx
  obtain ⟨wy, hy⟩ := Option.ne_none_iff_exists'.1 hy
  unfold test testWith
  rw [hx, hy]
  exact ⟨_, _, rfl⟩

/-! ### C117: small samples -/

/-- At most three observations raise an exception. -/
theorem C117_hsic_tiny {n d e : Nat} (sf : ℝ → ℝ → ℝ → ℝ) (X : Dat n d) (Y : Dat n e) :
    (∃ err, test sf X Y = .error err) ↔ n ≤ 3 := by
  unfold test testWith
  constructor
  · rintro ⟨err, h⟩
    by_contra hn
    rw [if_neg hn] at h
    cases hx : kernelWidth X <;> cases hy : kernelWidth Y <;> simp [hx, hy] at h
  · intro hn; exact ⟨_, if_pos hn⟩

/-- With four or five observations the p-value is NaN whatever the data are. -/
theorem C117_hsic_small {n d e : Nat} (hn : n = 4 ∨ n = 5) (sf : ℝ → ℝ → ℝ → ℝ) (X : Dat n d) (Y : Dat n e) :
    ∃ s, test sf X Y = .ok (s, none) := by
  have hv : ∀ K L : Fin n → Fin n → ℝ, nullVar K L = 0 := by
    intro K L
    unfold nullVar
    rcases hn with rfl | rfl <;> norm_num
  unfold test testWith
  rw [if_neg (by omega)]
  cases kernelWidth X <;> cases kernelWidth Y <;> simp [hv]

/-- Whenever a p-value is reported, there are at least six observations and both variables vary among the first 100. -/
theorem C117_hsic_p_needs {n d e : Nat} (sf : ℝ → ℝ → ℝ → ℝ) (X : Dat n d) (Y : Dat n e) (s : Option ℝ) (p : ℝ)
    (h : test sf X Y = .ok (s, some p)) :
    6 ≤ n ∧ (∃ i j : Fin n, i.val < 100 ∧ j.val < 100 ∧ X i ≠ X j) ∧ (∃ i j : Fin n, i.val < 100 ∧ j.val < 100 ∧ Y i ≠ Y j) := by
  have h3 : 3 < n := by
    by_contra hc
    obtain ⟨e, he⟩ := (C117_hsic_tiny sf X Y).2 (by omega)
    rw [he] at h; cases h
  have h45 : ¬ (n = 4 ∨ n = 5) := by
    intro hc
    obtain ⟨s', hs⟩ := C117_hsic_small hc sf X Y
    rw [hs] at h
    simp at h
  have hnn : ¬ test sf X Y = .ok (none, none) := by rw [h]; simp
  rw [C117_hsic_nan h3, not_or] at hnn
  obtain ⟨h1, h2⟩ := hnn
  push Not at h1 h2
  exact ⟨by omega, h1, h2⟩

end Verif.Hsic
