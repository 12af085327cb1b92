import Verif.Model.Hsic
import Mathlib.Analysis.Matrix.Order
import Mathlib.Analysis.SpecialFunctions.Exponential
import Mathlib.Tactic.Ring
import Mathlib.Tactic.FieldSimp
import Mathlib.Tactic.Linarith
import Mathlib.Tactic.Positivity
import Mathlib.Tactic.LinearCombination

/-! Lemmas about the model of `lingam/hsic.py`. -/
set_option autoImplicit false
set_option linter.unusedSectionVars false
namespace Verif.Hsic
open Finset

theorem dist_eq {n d : Nat} (X : Dat n d) (i j : Fin n) : dist X i j = ∑ k, (X i k - X j k) ^ 2 := by
  unfold dist
  rw [Finset.mul_sum, ← Finset.sum_add_distrib, ← Finset.sum_sub_distrib]
  exact Finset.sum_congr rfl (fun k _ => by ring)

theorem dist_comm {n d : Nat} (X : Dat n d) (i j : Fin n) : dist X i j = dist X j i := by
  rw [dist_eq, dist_eq]; exact Finset.sum_congr rfl (fun k _ => by ring)

theorem dist_nonneg {n d : Nat} (X : Dat n d) (i j : Fin n) : 0 ≤ dist X i j := by
  rw [dist_eq]; exact Finset.sum_nonneg (fun k _ => sq_nonneg _)

theorem dist_self {n d : Nat} (X : Dat n d) (i : Fin n) : dist X i i = 0 := by
  rw [dist_eq]; simp

theorem dist_eq_zero {n d : Nat} (X : Dat n d) (i j : Fin n) : dist X i j = 0 ↔ X i = X j := by
  rw [dist_eq, Finset.sum_eq_zero_iff_of_nonneg (fun k _ => sq_nonneg _)]
  constructor
  · intro h; funext k; have := h k (mem_univ k); exact sub_eq_zero.1 (pow_eq_zero_iff two_ne_zero |>.1 this)
  · intro h k _; simp [h]

theorem dist_affine {n d : Nat} (X : Dat n d) (a : ℝ) (b : Fin d → ℝ) (i j : Fin n) :
    dist (fun i k => a * X i k + b k) i j = a ^ 2 * dist X i j := by
  rw [dist_eq, dist_eq, Finset.mul_sum]; exact Finset.sum_congr rfl (fun k _ => by ring)

theorem positiveDists_affine {n d : Nat} (X : Dat n d) (a : ℝ) (ha : a ≠ 0) (b : Fin d → ℝ) :
    positiveDists (fun i k => a * X i k + b k) = (positiveDists X).map (fun x => a ^ 2 * x) := by
  have h2 : 0 < a ^ 2 := by positivity
  unfold positiveDists
  rw [Multiset.map_map]
  simp only [dist_affine, Function.comp_def, mul_pos_iff_of_pos_left h2]

theorem median_scale (s : Multiset ℝ) (c : ℝ) (hc : 0 < c) :
    median (s.map (fun x => c * x)) = (median s).map (fun x => c * x) := by
  have hs : (s.map (fun x => c * x)).sort (· ≤ ·) = (s.sort (· ≤ ·)).map (fun x => c * x) := by
    rw [Multiset.map_sort (r := (· ≤ ·)) (r' := (· ≤ ·))]
    intro a _ b _
    exact (mul_le_mul_iff_right₀ hc).symm
  have hg : ∀ (l : List ℝ) (i : Nat), (l.map (fun x => c * x)).getD i 0 = c * l.getD i 0 := by
    intro l i
    rw [List.getD_eq_getElem?_getD, List.getD_eq_getElem?_getD, List.getElem?_map]
    cases l[i]? <;> simp
  unfold median
  rw [hs]
  simp only [List.length_map, hg]
  split
  · rfl
  · simp only [Option.map_some]; congr 1; ring

theorem kernelWidth_affine {n d : Nat} (X : Dat n d) (a : ℝ) (ha : a ≠ 0) (b : Fin d → ℝ) :
    kernelWidth (fun i k => a * X i k + b k) = (kernelWidth X).map (fun w => |a| * w) := by
  have h2 : 0 < a ^ 2 := by positivity
  unfold kernelWidth
  have h1 : firstRows (fun i k => a * X i k + b k) = fun i k => a * firstRows X i k + b k := rfl
  rw [h1, positiveDists_affine _ a ha b, median_scale _ _ h2, Option.map_map, Option.map_map]
  congr 1
  funext m
  simp only [Function.comp_def]
  rw [show 1 / 2 * (a ^ 2 * m) = a ^ 2 * (1 / 2 * m) by ring, Real.sqrt_mul h2.le, Real.sqrt_sq_eq_abs]

theorem rbf_affine {n d : Nat} (X : Dat n d) (a : ℝ) (ha : a ≠ 0) (b : Fin d → ℝ) (w : ℝ) :
    rbf (fun i k => a * X i k + b k) (|a| * w) = rbf X w := by
  have h2 : a ^ 2 ≠ 0 := by positivity
  funext i j
  unfold rbf
  rw [dist_affine, mul_pow, sq_abs]
  congr 1
  rw [show -(a ^ 2 * dist X i j) / 2 = a ^ 2 * (-(dist X i j) / 2) by ring, mul_div_mul_left _ _ h2]

/-! ### Row order -/

theorem nsmul_two_inj {s t : Multiset ℝ} (h : s + s = t + t) : s = t := by
  classical
  ext a
  have := congrArg (Multiset.count a) h
  simp only [Multiset.count_add] at this
  omega

/-- All ordered pairs of rows at a positive distance. -/
noncomputable def allDists {n d : Nat} (X : Dat n d) : Multiset ℝ :=
  ((univ : Finset (Fin n × Fin n)).filter (fun p => 0 < dist X p.1 p.2)).val.map (fun p => dist X p.1 p.2)

theorem positiveDists_double {n d : Nat} (X : Dat n d) : positiveDists X + positiveDists X = allDists X := by
  have hsw : positiveDists X =
      ((univ : Finset (Fin n × Fin n)).filter (fun p => p.2 < p.1 ∧ 0 < dist X p.1 p.2)).val.map
        (fun p => dist X p.1 p.2) := by
    unfold positiveDists
    have : ((univ : Finset (Fin n × Fin n)).filter (fun p => p.2 < p.1 ∧ 0 < dist X p.1 p.2)) =
        ((univ : Finset (Fin n × Fin n)).filter (fun p => p.1 < p.2 ∧ 0 < dist X p.1 p.2)).map
          (Equiv.prodComm _ _).toEmbedding := by
      ext ⟨i, j⟩
      simp [dist_comm X i j]
    rw [this, Finset.map_val, Multiset.map_map]
    refine Multiset.map_congr rfl ?_
    rintro ⟨i, j⟩ _
    exact dist_comm X i j
  conv_lhs => enter [2]; rw [hsw]
  unfold positiveDists allDists
  rw [← Multiset.map_add]
  congr 1
  have hd : Disjoint ((univ : Finset (Fin n × Fin n)).filter (fun p => p.1 < p.2 ∧ 0 < dist X p.1 p.2))
      ((univ : Finset (Fin n × Fin n)).filter (fun p => p.2 < p.1 ∧ 0 < dist X p.1 p.2)) := by
    rw [Finset.disjoint_filter]
    rintro p _ ⟨h1, _⟩ ⟨h2, _⟩
    exact absurd h1 (not_lt.2 h2.le)
  rw [← Finset.disjUnion_val _ _ hd]
  congr 1
  ext ⟨i, j⟩
  simp only [Finset.mem_disjUnion, mem_filter, mem_univ, true_and]
  constructor
  · rintro (h | h) <;> exact h.2
  · intro h
    rcases lt_trichotomy i j with h1 | h1 | h1
    · exact Or.inl ⟨h1, h⟩
    · subst h1; rw [dist_self] at h; exact absurd h (lt_irrefl _)
    · exact Or.inr ⟨h1, h⟩

theorem positiveDists_perm {n d : Nat} (X : Dat n d) (σ : Equiv.Perm (Fin n)) :
    positiveDists (fun i => X (σ i)) = positiveDists X := by
  apply nsmul_two_inj
  rw [positiveDists_double, positiveDists_double]
  unfold allDists
  have : ((univ : Finset (Fin n × Fin n)).filter (fun p => 0 < dist X p.1 p.2)) =
      ((univ : Finset (Fin n × Fin n)).filter (fun p => 0 < dist (fun i => X (σ i)) p.1 p.2)).map
        (Equiv.prodCongr σ σ).toEmbedding := by
    ext ⟨i, j⟩
    simp only [mem_filter, mem_univ, true_and, Finset.mem_map, Equiv.coe_toEmbedding]
    constructor
    · intro h
      refine ⟨(σ.symm i, σ.symm j), ?_, by simp⟩
      have : dist (fun i => X (σ i)) (σ.symm i) (σ.symm j) = dist X i j := by simp [dist]
      rw [this]; exact h
    · rintro ⟨⟨a, b⟩, h, he⟩
      simp only [Equiv.prodCongr_apply, Prod.map_apply, Prod.mk.injEq] at he
      rw [← he.1, ← he.2]; exact h
  rw [this, Finset.map_val, Multiset.map_map]
  rfl

theorem kernelWidth_perm {n d : Nat} (X : Dat n d) (σ : Equiv.Perm (Fin n))
    (hσ : ∀ i : Fin n, i.val < 100 ↔ (σ i).val < 100) :
    kernelWidth (fun i => X (σ i)) = kernelWidth X := by
  have hm : ∀ i : Fin (min n 100), (σ (Fin.castLE (Nat.min_le_left n 100) i)).val < min n 100 := by
    intro i
    have h1 := (hσ (Fin.castLE (Nat.min_le_left n 100) i)).1 (by simp; omega)
    have h2 := (σ (Fin.castLE (Nat.min_le_left n 100) i)).isLt
    omega
  let τ : Fin (min n 100) → Fin (min n 100) := fun i => ⟨(σ (Fin.castLE (Nat.min_le_left n 100) i)).val, hm i⟩
  have hinj : Function.Injective τ := by
    intro a b h
    have h1 : (σ (Fin.castLE (Nat.min_le_left n 100) a)).val = (σ (Fin.castLE (Nat.min_le_left n 100) b)).val :=
      Fin.mk.inj h
    have h2 := σ.injective (Fin.ext h1)
    exact Fin.castLE_injective _ h2
  let e : Equiv.Perm (Fin (min n 100)) := Equiv.ofBijective τ (Finite.injective_iff_bijective.1 hinj)
  have hf : firstRows (fun i => X (σ i)) = fun i => firstRows X (e i) := by
    funext i
    rfl
  unfold kernelWidth
  rw [hf, positiveDists_perm]

theorem centred_perm {n : Nat} (K : Fin n → Fin n → ℝ) (σ : Equiv.Perm (Fin n)) :
    centred (fun i j => K (σ i) (σ j)) = fun i j => centred K (σ i) (σ j) := by
  funext i j
  unfold centred
  rw [Equiv.sum_comp σ (fun a => K a (σ j)), Equiv.sum_comp σ (fun b => K (σ i) b),
    Equiv.sum_comp σ (fun a => ∑ b, K a (σ b))]
  have : ∀ a, ∑ b, K a (σ b) = ∑ b, K a b := fun a => Equiv.sum_comp σ (fun b => K a b)
  simp only [this]

theorem sum2_perm {n : Nat} (F : Fin n → Fin n → ℝ) (σ : Equiv.Perm (Fin n)) :
    ∑ i, ∑ j, F (σ i) (σ j) = ∑ i, ∑ j, F i j := by
  rw [Equiv.sum_comp σ (fun a => ∑ b, F a (σ b))]
  exact Finset.sum_congr rfl (fun a _ => Equiv.sum_comp σ (fun b => F a b))

theorem testStat_perm {n : Nat} (K L : Fin n → Fin n → ℝ) (σ : Equiv.Perm (Fin n)) :
    testStat (fun i j => K (σ i) (σ j)) (fun i j => L (σ i) (σ j)) = testStat K L := by
  unfold testStat
  rw [sum2_perm (fun i j => K j i * L i j) σ]

theorem nullVar_perm {n : Nat} (K L : Fin n → Fin n → ℝ) (σ : Equiv.Perm (Fin n)) :
    nullVar (fun i j => K (σ i) (σ j)) (fun i j => L (σ i) (σ j)) = nullVar K L := by
  unfold nullVar
  rw [sum2_perm (fun i j => (1 / 6 * K i j * L i j) ^ 2) σ,
    Equiv.sum_comp σ (fun i => (1 / 6 * K i i * L i i) ^ 2)]

theorem offMean_perm {n : Nat} (K : Fin n → Fin n → ℝ) (σ : Equiv.Perm (Fin n)) :
    offMean (fun i j => K (σ i) (σ j)) = offMean K := by
  unfold offMean
  rw [← sum2_perm (fun i j => if i = j then 0 else K i j) σ]
  simp only [σ.injective.eq_iff]

/-! ### When the width is undefined -/

theorem median_eq_none (s : Multiset ℝ) : median s = none ↔ s = 0 := by
  unfold median
  simp only [Multiset.length_sort]
  split
  · rename_i h; simp [Multiset.card_eq_zero.1 h]
  · rename_i h
    simp only [false_iff, reduceCtorEq]
    intro hs; exact h (by simp [hs])

theorem positiveDists_eq_zero {n d : Nat} (X : Dat n d) : positiveDists X = 0 ↔ ∀ i j, X i = X j := by
  have h : positiveDists X = 0 ↔ allDists X = 0 := by
    rw [← positiveDists_double]
    constructor
    · intro h; rw [h]; rfl
    · intro h; exact nsmul_two_inj (by rw [h]; rfl)
  rw [h]
  unfold allDists
  rw [Multiset.map_eq_zero, Finset.val_eq_zero, Finset.filter_eq_empty_iff]
  constructor
  · intro h i j
    have := h (mem_univ (i, j))
    exact (dist_eq_zero X i j).1 (le_antisymm (not_lt.1 this) (dist_nonneg X i j))
  · rintro h ⟨i, j⟩ _ hlt
    rw [(dist_eq_zero X i j).2 (h i j)] at hlt
    exact lt_irrefl _ hlt

theorem kernelWidth_eq_none {n d : Nat} (X : Dat n d) :
    kernelWidth X = none ↔ ∀ i j : Fin n, i.val < 100 → j.val < 100 → X i = X j := by
  unfold kernelWidth
  rw [Option.map_eq_none_iff, median_eq_none, positiveDists_eq_zero]
  constructor
  · intro h i j hi hj
    exact h ⟨i.val, by omega⟩ ⟨j.val, by omega⟩
  · intro h i j
    exact h _ _ (by simp; omega) (by simp; omega)

theorem median_pos {s : Multiset ℝ} (hs : ∀ x ∈ s, 0 < x) {m : ℝ} (h : median s = some m) : 0 < m := by
  unfold median at h
  simp only at h
  split at h
  · cases h
  · rename_i hl
    cases h
    have hg : ∀ i, i < (s.sort (· ≤ ·)).length → 0 < (s.sort (· ≤ ·)).getD i 0 := by
      intro i hi
      rw [List.getD_eq_getElem?_getD, List.getElem?_eq_getElem hi, Option.getD_some]
      exact hs _ ((Multiset.mem_sort (r := (· ≤ ·))).1 (List.getElem_mem hi))
    have h1 := hg (((s.sort (· ≤ ·)).length - 1) / 2) (by omega)
    have h2 := hg ((s.sort (· ≤ ·)).length / 2) (by omega)
    linarith

theorem kernelWidth_pos {n d : Nat} {X : Dat n d} {w : ℝ} (h : kernelWidth X = some w) : 0 < w := by
  unfold kernelWidth at h
  rw [Option.map_eq_some_iff] at h
  obtain ⟨m, hm, rfl⟩ := h
  have : 0 < m := by
    refine median_pos ?_ hm
    intro x hx
    unfold positiveDists at hx
    rw [Multiset.mem_map] at hx
    obtain ⟨p, hp, rfl⟩ := hx
    exact ((Finset.mem_filter.1 hp).2).2
  exact Real.sqrt_pos.2 (by linarith)

/-! ### The Gaussian kernel is positive semidefinite -/

/-- Symmetric with a nonnegative quadratic form. -/
def Psd {n : Nat} (K : Fin n → Fin n → ℝ) : Prop :=
  (∀ i j, K i j = K j i) ∧ ∀ c : Fin n → ℝ, 0 ≤ ∑ i, ∑ j, c i * c j * K i j

theorem psd_iff {n : Nat} (K : Fin n → Fin n → ℝ) : Psd K ↔ (Matrix.of K).PosSemidef := by
  rw [Matrix.posSemidef_iff_dotProduct_mulVec]
  have hq : ∀ c : Fin n → ℝ, dotProduct (star c) (Matrix.mulVec (Matrix.of K) c) = ∑ i, ∑ j, c i * c j * K i j := by
    intro c
    simp only [dotProduct, Matrix.mulVec, Matrix.of_apply, Pi.star_apply, star_trivial, Finset.mul_sum]
    exact Finset.sum_congr rfl (fun i _ => Finset.sum_congr rfl (fun j _ => by ring))
  constructor
  · rintro ⟨h1, h2⟩
    refine ⟨?_, fun c => by rw [hq]; exact h2 c⟩
    ext i j
    simp [h1 i j]
  · rintro ⟨h1, h2⟩
    refine ⟨fun i j => ?_, fun c => by rw [← hq]; exact h2 c⟩
    have := congrFun (congrFun h1 j) i
    simpa using this

theorem Psd.mul {n : Nat} {K L : Fin n → Fin n → ℝ} (hK : Psd K) (hL : Psd L) : Psd (fun i j => K i j * L i j) := by
  rw [psd_iff] at hK hL ⊢
  exact hK.hadamard hL

theorem psd_one {n : Nat} : Psd (fun (_ _ : Fin n) => (1 : ℝ)) := by
  refine ⟨fun _ _ => rfl, fun c => ?_⟩
  have : ∑ i, ∑ j, c i * c j * 1 = (∑ i, c i) ^ 2 := by
    rw [sq, Finset.sum_mul_sum]; simp
  rw [this]; positivity

theorem Psd.pow {n : Nat} {K : Fin n → Fin n → ℝ} (hK : Psd K) (m : Nat) : Psd (fun i j => K i j ^ m) := by
  induction m with
  | zero => simpa using psd_one
  | succ m ih => simpa only [pow_succ] using ih.mul hK

theorem Psd.exp {n : Nat} {K : Fin n → Fin n → ℝ} (hK : Psd K) : Psd (fun i j => Real.exp (K i j)) := by
  refine ⟨fun i j => congrArg Real.exp (hK.1 i j), fun c => ?_⟩
  have h1 : ∀ i j, HasSum (fun m : Nat => c i * c j * (K i j ^ m / (m.factorial : ℝ))) (c i * c j * Real.exp (K i j)) := by
    intro i j
    refine HasSum.mul_left _ ?_
    rw [Real.exp_eq_exp_ℝ]
    exact NormedSpace.expSeries_div_hasSum_exp (K i j)
  have h2 : HasSum (fun m : Nat => ∑ i, ∑ j, c i * c j * (K i j ^ m / (m.factorial : ℝ)))
      (∑ i, ∑ j, c i * c j * Real.exp (K i j)) :=
    hasSum_sum (fun i _ => hasSum_sum (fun j _ => h1 i j))
  refine h2.nonneg (fun m => ?_)
  have : ∑ i, ∑ j, c i * c j * (K i j ^ m / (m.factorial : ℝ)) =
      (∑ i, ∑ j, c i * c j * K i j ^ m) / (m.factorial : ℝ) := by
    rw [Finset.sum_div]
    refine Finset.sum_congr rfl (fun i _ => ?_)
    rw [Finset.sum_div]
    exact Finset.sum_congr rfl (fun j _ => by ring)
  rw [this]
  exact div_nonneg ((hK.pow m).2 c) (by positivity)

theorem psd_gram {n d : Nat} (X : Dat n d) (s : ℝ) (hs : 0 ≤ s) : Psd (fun i j => s * ∑ k, X i k * X j k) := by
  refine ⟨fun i j => by simp only [mul_comm], fun c => ?_⟩
  have : ∑ i, ∑ j, c i * c j * (s * ∑ k, X i k * X j k) = s * ∑ k, (∑ i, c i * X i k) ^ 2 := by
    have h1 : ∀ k, (∑ i, c i * X i k) ^ 2 = ∑ i, ∑ j, (c i * X i k) * (c j * X j k) := by
      intro k; rw [sq, Finset.sum_mul_sum]
    simp only [h1]
    conv_rhs => rw [Finset.sum_comm, Finset.mul_sum]
    refine Finset.sum_congr rfl (fun i _ => ?_)
    conv_rhs => rw [Finset.sum_comm, Finset.mul_sum]
    refine Finset.sum_congr rfl (fun j _ => ?_)
    simp only [Finset.mul_sum]
    exact Finset.sum_congr rfl (fun k _ => by ring)
  rw [this]
  exact mul_nonneg hs (Finset.sum_nonneg (fun k _ => sq_nonneg _))

theorem Psd.congr_scale {n : Nat} {K : Fin n → Fin n → ℝ} (hK : Psd K) (a : Fin n → ℝ) :
    Psd (fun i j => a i * a j * K i j) := by
  refine ⟨fun i j => by simp only [hK.1 i j]; ring, fun c => ?_⟩
  have := hK.2 (fun i => c i * a i)
  refine this.trans_eq (Finset.sum_congr rfl (fun i _ => Finset.sum_congr rfl (fun j _ => by ring)))

theorem psd_rbf {n d : Nat} (X : Dat n d) (w : ℝ) : Psd (rbf X w) := by
  have h := ((psd_gram X (1 / w ^ 2) (by positivity)).exp).congr_scale
    (fun i => Real.exp (-(1 / w ^ 2) / 2 * ∑ k, X i k * X i k))
  have he : rbf X w = fun i j => Real.exp (-(1 / w ^ 2) / 2 * ∑ k, X i k * X i k) *
      Real.exp (-(1 / w ^ 2) / 2 * ∑ k, X j k * X j k) * Real.exp (1 / w ^ 2 * ∑ k, X i k * X j k) := by
    funext i j
    rw [← Real.exp_add, ← Real.exp_add]
    unfold rbf dist
    congr 1
    ring
  rw [he]; exact h

theorem psd_centred {n : Nat} {K : Fin n → Fin n → ℝ} (hK : Psd K) : Psd (centred K) := by
  refine ⟨fun i j => ?_, fun c => ?_⟩
  · unfold centred
    rw [hK.1 i j, show ∑ a, K a j = ∑ a, K j a from Finset.sum_congr rfl (fun a _ => hK.1 a j),
      show ∑ a, K i a = ∑ a, K a i from Finset.sum_congr rfl (fun a _ => hK.1 i a)]
    ring
  · have h := hK.2 (fun i => c i - (∑ a, c a) / n)
    refine h.trans_eq ?_
    set S := ∑ a, c a with hS
    have e1 : ∑ i, ∑ j, (c i - S / n) * (c j - S / n) * K i j =
        (∑ i, ∑ j, c i * c j * K i j) - S / n * (∑ i, c i * ∑ j, K i j) - S / n * (∑ j, c j * ∑ i, K i j)
          + (S / n) ^ 2 * ∑ i, ∑ j, K i j := by
      have e3 : ∑ j, c j * ∑ i, K i j = ∑ i, ∑ j, c j * K i j := by
        simp only [Finset.mul_sum]; exact Finset.sum_comm
      rw [e3]
      simp only [Finset.mul_sum, ← Finset.sum_sub_distrib, ← Finset.sum_add_distrib]
      exact Finset.sum_congr rfl (fun i _ => Finset.sum_congr rfl (fun j _ => by ring))
    have e2 : ∑ i, ∑ j, c i * c j * centred K i j =
        (∑ i, ∑ j, c i * c j * K i j) - S / n * (∑ j, c j * ∑ i, K i j) - S / n * (∑ i, c i * ∑ j, K i j)
          + (S / n) ^ 2 * ∑ i, ∑ j, K i j := by
      have f1 : S * (∑ j, c j * ∑ i, K i j) = ∑ i, ∑ j, c i * (c j * ∑ a, K a j) := by
        rw [hS, Finset.sum_mul_sum]
      have f2 : S * (∑ i, c i * ∑ j, K i j) = ∑ i, ∑ j, c j * (c i * ∑ b, K i b) := by
        rw [hS, Finset.sum_mul_sum, Finset.sum_comm]
      have f3 : S ^ 2 * ∑ i, ∑ j, K i j = ∑ i, ∑ j, c i * c j * ∑ a, ∑ b, K a b := by
        rw [sq, hS, Finset.sum_mul_sum]
        simp only [Finset.sum_mul]
      have g1 : S / n * (∑ j, c j * ∑ i, K i j) = (∑ i, ∑ j, c i * (c j * ∑ a, K a j)) / n := by rw [← f1]; ring
      have g2 : S / n * (∑ i, c i * ∑ j, K i j) = (∑ i, ∑ j, c j * (c i * ∑ b, K i b)) / n := by rw [← f2]; ring
      have g3 : (S / n) ^ 2 * ∑ i, ∑ j, K i j = (∑ i, ∑ j, c i * c j * ∑ a, ∑ b, K a b) / n ^ 2 := by rw [← f3]; ring
      rw [g1, g2, g3]
      simp only [Finset.sum_div, ← Finset.sum_sub_distrib, ← Finset.sum_add_distrib]
      refine Finset.sum_congr rfl (fun i _ => Finset.sum_congr rfl (fun j _ => ?_))
      unfold centred
      ring
    rw [e1, e2]; ring

theorem testStat_nonneg {n : Nat} {K L : Fin n → Fin n → ℝ} (hK : Psd K) (hL : Psd L) : 0 ≤ testStat K L := by
  have h := (hK.mul hL).2 (fun _ => 1)
  unfold testStat
  refine mul_nonneg (by positivity) (h.trans_eq ?_)
  refine Finset.sum_congr rfl (fun i _ => Finset.sum_congr rfl (fun j _ => ?_))
  rw [hK.1 j i]; ring

theorem nullVar_nonneg {n : Nat} (hn : 3 < n) (K L : Fin n → Fin n → ℝ) : 0 ≤ nullVar K L := by
  have hn' : (4 : ℝ) ≤ n := by exact_mod_cast hn
  have h45 : 0 ≤ ((n : ℝ) - 4) * ((n : ℝ) - 5) := by
    by_cases h : n = 4
    · subst h; norm_num
    · have : (5 : ℝ) ≤ n := by exact_mod_cast (by omega : 5 ≤ n)
      exact mul_nonneg (by linarith) (by linarith)
  unfold nullVar
  have h1 : (0 : ℝ) ≤ n := by linarith
  have h2 : (0 : ℝ) ≤ (n : ℝ) - 1 := by linarith
  have h3 : (0 : ℝ) ≤ (n : ℝ) - 2 := by linarith
  have h4 : (0 : ℝ) ≤ (n : ℝ) - 3 := by linarith
  refine mul_nonneg ?_ (mul_nonneg ?_ ?_)
  · refine div_nonneg (div_nonneg (div_nonneg (div_nonneg ?_ h1) h2) h3) h4
    rw [mul_assoc]; exact mul_nonneg (by norm_num) h45
  · exact div_nonneg (div_nonneg zero_le_one h1) h2
  · rw [sub_nonneg]
    refine Finset.sum_le_sum (fun i _ => ?_)
    exact Finset.single_le_sum (f := fun j => (1 / 6 * K i j * L i j) ^ 2) (fun j _ => sq_nonneg _) (mem_univ i)

/-- The mean of the off-diagonal entries of the Gaussian kernel of data that are not constant lies in `(0, 1)`. -/
theorem offMean_rbf {n d : Nat} (X : Dat n d) {w : ℝ} (hw : 0 < w) (hn : 1 < n) (hX : ∃ i j, X i ≠ X j) :
    0 < offMean (rbf X w) ∧ offMean (rbf X w) < 1 := by
  have hn' : (2 : ℝ) ≤ n := by exact_mod_cast hn
  have hpos : 0 < 1 / (n : ℝ) / ((n : ℝ) - 1) := by
    refine div_pos (div_pos one_pos (by linarith)) (by linarith)
  obtain ⟨a, b, hab⟩ := hX
  have hne : a ≠ b := fun h => hab (by rw [h])
  have hr0 : ∀ i j, 0 < rbf X w i j := fun i j => Real.exp_pos _
  have hr1 : ∀ i j, rbf X w i j ≤ 1 := by
    intro i j
    unfold rbf
    rw [Real.exp_le_one_iff, div_nonpos_iff]
    right
    exact ⟨by have := dist_nonneg X i j; linarith, by positivity⟩
  have hrab : rbf X w a b < 1 := by
    unfold rbf
    rw [Real.exp_lt_one_iff]
    have hd : 0 < dist X a b := lt_of_le_of_ne (dist_nonneg X a b) (fun h => hab ((dist_eq_zero X a b).1 h.symm))
    exact div_neg_of_neg_of_pos (by linarith) (by positivity)
  have hnn : ∀ i j, 0 ≤ (if i = j then 0 else rbf X w i j) := by
    intro i j; split
    · exact le_refl _
    · exact (hr0 i j).le
  constructor
  · unfold offMean
    refine mul_pos hpos ?_
    refine Finset.sum_pos' (fun i _ => Finset.sum_nonneg (fun j _ => hnn i j)) ⟨a, mem_univ a, ?_⟩
    refine Finset.sum_pos' (fun j _ => hnn a j) ⟨b, mem_univ b, ?_⟩
    rw [if_neg hne]; exact hr0 a b
  · unfold offMean
    have hs : ∑ i : Fin n, ∑ j : Fin n, (if i = j then (0 : ℝ) else 1) = n * ((n : ℝ) - 1) := by
      have : ∀ i : Fin n, ∑ j : Fin n, (if i = j then (0 : ℝ) else 1) = (n : ℝ) - 1 := by
        intro i
        have h : ∀ j : Fin n, (if i = j then (0 : ℝ) else 1) = 1 - (if i = j then 1 else 0) := by
          intro j; split <;> simp
        simp only [h, Finset.sum_sub_distrib]
        simp
      simp only [this]; simp; ring
    have hle : ∀ i j, (if i = j then 0 else rbf X w i j) ≤ (if i = j then (0 : ℝ) else 1) := by
      intro i j; split
      · exact le_refl _
      · exact hr1 i j
    have hlt : ∑ i, ∑ j, (if i = j then 0 else rbf X w i j) < ∑ i : Fin n, ∑ j : Fin n, (if i = j then (0 : ℝ) else 1) := by
      refine Finset.sum_lt_sum (fun i _ => Finset.sum_le_sum (fun j _ => hle i j)) ⟨a, mem_univ a, ?_⟩
      refine Finset.sum_lt_sum (fun j _ => hle a j) ⟨b, mem_univ b, ?_⟩
      rw [if_neg hne, if_neg hne]; exact hrab
    rw [hs] at hlt
    have h2 := mul_lt_mul_of_pos_left hlt hpos
    refine h2.trans_eq ?_
    have h3 : (n : ℝ) ≠ 0 := by linarith
    have h4 : (n : ℝ) - 1 ≠ 0 := by linarith
    field_simp

end Verif.Hsic
