import Verif.Spec.FCorr
import Verif.Model.FCorr
import Verif.Proofs.Hsic
import Mathlib.Tactic.Linarith
import Mathlib.Tactic.Ring
import Mathlib.Tactic.Positivity
import Mathlib.Tactic.FieldSimp
import Verif.Proofs.FCorrMax
import Mathlib.Algebra.QuadraticDiscriminant

set_option autoImplicit false
set_option linter.unusedSectionVars false
namespace Verif.FCorr

open Matrix

/-! ### The kernel -/

theorem kern_eq (σ a b : ℝ) : kern σ a b = gauss σ a b := by
  have h : sqDist a b = (a - b) ^ 2 := by
    unfold sqDist
    rw [show a * a + b * b - 2 * (a * b) = (a - b) ^ 2 by ring]
    exact abs_of_nonneg (sq_nonneg _)
  unfold kern gauss
  rw [h]
  congr 1
  rw [div_mul_eq_mul_div, mul_comm 2 (σ ^ 2), ← div_div, ← div_right_comm]
  ring

theorem gauss_symm (σ a b : ℝ) : gauss σ a b = gauss σ b a := by
  unfold gauss
  congr 3
  ring

theorem gauss_self (σ a : ℝ) : gauss σ a a = 1 := by simp [gauss]

theorem gauss_psd {n : Nat} (σ : ℝ) (z c : Fin n → ℝ) : 0 ≤ ∑ r, ∑ s, c r * c s * gauss σ (z r) (z s) := by
  have h := (Hsic.psd_rbf (d := 1) (fun r _ => z r) σ).2 c
  refine h.trans_eq (Finset.sum_congr rfl fun r _ => Finset.sum_congr rfl fun s _ => ?_)
  congr 1
  unfold gauss Hsic.rbf Hsic.dist
  congr 1
  simp only [Finset.univ_unique, Finset.sum_singleton]
  ring

/-! ### Incomplete Cholesky decomposition -/

/-- What is left of the kernel matrix, in the order of the positions. -/
noncomputable def rem (x : Nat → ℝ) (σ : ℝ) (i : Nat) (s : Chol) (a b : Nat) : ℝ :=
  gauss σ (x (s.P a)) (x (s.P b)) - ∑ k ∈ Finset.range i, s.G a k * s.G b k

theorem rem_symm (x : Nat → ℝ) (σ : ℝ) (i : Nat) (s : Chol) (a b : Nat) : rem x σ i s a b = rem x σ i s b a := by
  unfold rem
  rw [gauss_symm]
  congr 1
  exact Finset.sum_congr rfl fun k _ => mul_comm _ _

structure Inv (n : Nat) (x : Nat → ℝ) (σ : ℝ) (i : Nat) (s : Chol) : Prop where
  lt : ∀ a, a < n → s.P a < n
  inj : ∀ a b, a < n → b < n → s.P a = s.P b → a = b
  done : ∀ a b, a < i → b < n → rem x σ i s a b = 0
  diag : ∀ j, i ≤ j → j < n → s.Gjj j = rem x σ i s j j
  psd : ∀ c : Nat → ℝ, 0 ≤ ∑ a ∈ Finset.range n, ∑ b ∈ Finset.range n, c a * c b * rem x σ i s a b

theorem argmaxGo_spec (g : Nat → ℝ) : ∀ k j b, b < j → (argmaxGo g k j b = b ∨ (j ≤ argmaxGo g k j b ∧ argmaxGo g k j b < j + k)) ∧
    g b ≤ g (argmaxGo g k j b) ∧ ∀ l, j ≤ l → l < j + k → g l ≤ g (argmaxGo g k j b)
  | 0, j, b, _ => by simp only [argmaxGo]; exact ⟨Or.inl trivial, le_refl _, fun l h1 h2 => by omega⟩
  | k + 1, j, b, hb => by
    unfold argmaxGo
    split_ifs with h
    · obtain ⟨h1, h2, h3⟩ := argmaxGo_spec g k (j + 1) j (by omega)
      refine ⟨Or.inr ?_, h.le.trans h2, fun l hl hl' => ?_⟩
      · rcases h1 with e | e
        · rw [e]; omega
        · omega
      · rcases Nat.eq_or_lt_of_le hl with e | e
        · rw [← e]; exact h2
        · exact h3 l e (by omega)
    · obtain ⟨h1, h2, h3⟩ := argmaxGo_spec g k (j + 1) b (by omega)
      refine ⟨?_, h2, fun l hl hl' => ?_⟩
      · rcases h1 with e | e
        · exact Or.inl e
        · exact Or.inr (by omega)
      · rcases Nat.eq_or_lt_of_le hl with e | e
        · rw [← e]; exact (not_lt.1 h).trans h2
        · exact h3 l e (by omega)

theorem pivot_range {n i : Nat} (hi : i < n) (g : Nat → ℝ) : i ≤ pivot n i g ∧ pivot n i g < n := by
  unfold pivot
  split_ifs with h
  · obtain ⟨h1, -, -⟩ := argmaxGo_spec g (n - (i + 1)) (i + 1) i (by omega)
    rcases h1 with e | e
    · rw [e]; omega
    · omega
  · omega

theorem pivot_max {n i : Nat} (h0 : 0 < i) (hi : i < n) (g : Nat → ℝ) {l : Nat} (hl : i ≤ l) (hl' : l < n) : g l ≤ g (pivot n i g) := by
  unfold pivot
  rw [if_pos h0]
  obtain ⟨-, h2, h3⟩ := argmaxGo_spec g (n - (i + 1)) (i + 1) i (by omega)
  rcases Nat.eq_or_lt_of_le hl with e | e
  · rw [← e]; exact h2
  · exact h3 l e (by omega)

theorem swapPos_swap (i j a : Nat) : swapPos i j (swapPos i j a) = a := by
  unfold swapPos
  split_ifs <;> omega

theorem swapPos_lt {i j a n : Nat} (hi : i < n) (hj : j < n) (ha : a < n) : swapPos i j a < n := by
  unfold swapPos
  split_ifs <;> omega

theorem sum_swap {n i j : Nat} (hi : i < n) (hj : j < n) (f : Nat → ℝ) :
    ∑ a ∈ Finset.range n, f (swapPos i j a) = ∑ a ∈ Finset.range n, f a := by
  refine Finset.sum_nbij' (swapPos i j) (swapPos i j) ?_ ?_ ?_ ?_ ?_
  · intro a ha; exact Finset.mem_range.2 (swapPos_lt hi hj (Finset.mem_range.1 ha))
  · intro a ha; exact Finset.mem_range.2 (swapPos_lt hi hj (Finset.mem_range.1 ha))
  · intro a _; exact swapPos_swap i j a
  · intro a _; exact swapPos_swap i j a
  · intro a _; rfl

/-- Cauchy–Schwarz for a positive semidefinite matrix. -/
theorem schwarz {n p : Nat} {E : Nat → Nat → ℝ} (hsym : ∀ a b, E a b = E b a)
    (hpsd : ∀ c : Nat → ℝ, 0 ≤ ∑ a ∈ Finset.range n, ∑ b ∈ Finset.range n, c a * c b * E a b) (hp : p < n) (hpos : 0 < E p p) (c : Nat → ℝ) :
    (∑ a ∈ Finset.range n, c a * E a p) ^ 2 / E p p ≤ ∑ a ∈ Finset.range n, ∑ b ∈ Finset.range n, c a * c b * E a b := by
  set T := ∑ a ∈ Finset.range n, c a * E a p with hT
  set t := T / E p p with ht
  have h := hpsd (fun a => c a - if a = p then t else 0)
  have hmem : p ∈ Finset.range n := Finset.mem_range.2 hp
  have e : ∑ a ∈ Finset.range n, ∑ b ∈ Finset.range n, (c a - if a = p then t else 0) * (c b - if b = p then t else 0) * E a b =
      (∑ a ∈ Finset.range n, ∑ b ∈ Finset.range n, c a * c b * E a b) - 2 * t * T + t ^ 2 * E p p := by
    have e1 : ∀ a b, (c a - if a = p then t else 0) * (c b - if b = p then t else 0) * E a b =
        c a * c b * E a b - (if b = p then t * (c a * E a p) else 0) - (if a = p then t * (c b * E b p) else 0) +
          (if a = p then (if b = p then t ^ 2 * E p p else 0) else 0) := by
      intro a b
      by_cases ha : a = p <;> by_cases hb : b = p
      · subst ha; subst hb; simp; ring
      · subst ha; simp only [hb, if_true, if_false]; rw [hsym a b]; ring
      · subst hb; simp only [ha, if_true, if_false]; ring
      · simp only [ha, hb, if_false]; ring
    simp only [e1, Finset.sum_add_distrib, Finset.sum_sub_distrib]
    have s1 : ∑ a ∈ Finset.range n, ∑ b ∈ Finset.range n, (if b = p then t * (c a * E a p) else 0) = t * T := by
      have : ∀ a, ∑ b ∈ Finset.range n, (if b = p then t * (c a * E a p) else 0) = t * (c a * E a p) := fun a => by
        rw [Finset.sum_ite_eq' (Finset.range n) p, if_pos hmem]
      simp only [this, ← Finset.mul_sum, hT]
    have s2 : ∑ a ∈ Finset.range n, ∑ b ∈ Finset.range n, (if a = p then t * (c b * E b p) else 0) = t * T := by
      rw [Finset.sum_comm]; exact s1
    have s3 : ∑ a ∈ Finset.range n, ∑ b ∈ Finset.range n, (if a = p then (if b = p then t ^ 2 * E p p else 0) else 0) = t ^ 2 * E p p := by
      have : ∀ a, ∑ b ∈ Finset.range n, (if a = p then (if b = p then t ^ 2 * E p p else 0) else 0) = if a = p then t ^ 2 * E p p else 0 := by
        intro a
        by_cases ha : a = p
        · simp only [ha, if_true]; rw [Finset.sum_ite_eq' (Finset.range n) p, if_pos hmem]
        · simp [ha]
      simp only [this]
      rw [Finset.sum_ite_eq' (Finset.range n) p, if_pos hmem]
    rw [s1, s2, s3]
    ring
  rw [e] at h
  have h1 : T ^ 2 / E p p = 2 * t * T - t ^ 2 * E p p := by
    rw [ht]; field_simp; ring
  rw [h1]
  linarith

theorem pivot_pos {n i : Nat} {x : Nat → ℝ} {σ tol : ℝ} (htol : 0 ≤ tol) {s : Chol} (hi : i < n) (hinv : Inv n x σ i s)
    (h : tol < ∑ j ∈ Finset.Ico i n, s.Gjj j) : 0 < s.Gjj (pivot n i s.Gjj) := by
  rcases Nat.eq_zero_or_pos i with rfl | h0
  · have : pivot n 0 s.Gjj = 0 := by simp [pivot]
    rw [this, hinv.diag 0 le_rfl hi]
    simp [rem, gauss_self]
  · by_contra hcon
    have hle : ∑ j ∈ Finset.Ico i n, s.Gjj j ≤ 0 := Finset.sum_nonpos fun j hj =>
      (pivot_max h0 hi s.Gjj (Finset.mem_Ico.1 hj).1 (Finset.mem_Ico.1 hj).2).trans (not_lt.1 hcon)
    linarith

theorem inv_step {n i : Nat} {x : Nat → ℝ} {σ tol : ℝ} (htol : 0 ≤ tol) {s : Chol} (hi : i < n) (hinv : Inv n x σ i s)
    (h : tol < ∑ j ∈ Finset.Ico i n, s.Gjj j) : Inv n x σ (i + 1) (cholStep n x σ i s) := by
  have hpos := pivot_pos htol hi hinv h
  obtain ⟨hp1, hp2⟩ := pivot_range hi s.Gjj
  set p := pivot n i s.Gjj with hp
  rw [hinv.diag p hp1 hp2] at hpos
  set E := rem x σ i s with hE
  have hsym : ∀ a b, E a b = E b a := rem_symm x σ i s
  set d := √(s.Gjj p) with hd
  have hdpos : 0 < d := by rw [hd, hinv.diag p hp1 hp2]; exact Real.sqrt_pos.2 hpos
  have hdd : d * d = E p p := by rw [hd, hinv.diag p hp1 hp2]; exact Real.mul_self_sqrt hpos.le
  set s' := cholStep n x σ i s with hs'
  have hP : ∀ a, s'.P a = s.P (swapPos i p a) := fun a => rfl
  have hGlt : ∀ a k, k < i → s'.G a k = s.G (swapPos i p a) k := by
    intro a k hk
    simp only [hs', cholStep]
    rw [if_neg (by omega), if_pos hk]
  have hsi : swapPos i p i = p := by simp [swapPos]
  have hGi : ∀ a, a < n → s'.G a i = E (swapPos i p a) p / d := by
    intro a ha
    simp only [hs', cholStep, if_true]
    by_cases e1 : a = i
    · subst e1
      rw [if_pos rfl, hsi, ← hdd, mul_div_assoc, div_self hdpos.ne', mul_one]
    · rw [if_neg e1]
      by_cases e2 : i < a
      · rw [if_pos e2, kern_eq, hE]
        unfold rem
        rw [← hp, hsi, one_div, ← div_eq_inv_mul]
        congr 2
        refine Finset.sum_congr rfl fun k hk => ?_
        have hk' := Finset.mem_range.1 hk
        rw [if_pos hk', if_pos hk']
      · rw [if_neg e2]
        have e3 : swapPos i p a = a := by unfold swapPos; rw [if_neg e1, if_neg (by omega)]
        rw [e3, hE, hinv.done a p (by omega) hp2, zero_div]
  have hrem : ∀ a b, a < n → b < n → rem x σ (i + 1) s' a b = E (swapPos i p a) (swapPos i p b) - E (swapPos i p a) p * E (swapPos i p b) p / E p p := by
    intro a b ha hb
    unfold rem
    rw [Finset.sum_range_succ, hP, hP, hGi a ha, hGi b hb]
    have e : ∑ k ∈ Finset.range i, s'.G a k * s'.G b k = ∑ k ∈ Finset.range i, s.G (swapPos i p a) k * s.G (swapPos i p b) k :=
      Finset.sum_congr rfl fun k hk => by rw [hGlt a k (Finset.mem_range.1 hk), hGlt b k (Finset.mem_range.1 hk)]
    have e1 : E (swapPos i p a) p / d * (E (swapPos i p b) p / d) = E (swapPos i p a) p * E (swapPos i p b) p / E p p := by
      rw [div_mul_div_comm, hdd]
    have e2 : E (swapPos i p a) (swapPos i p b) = gauss σ (x (s.P (swapPos i p a))) (x (s.P (swapPos i p b))) -
        ∑ k ∈ Finset.range i, s.G (swapPos i p a) k * s.G (swapPos i p b) k := rfl
    rw [e, e1, e2]
    ring
  refine ⟨?_, ?_, ?_, ?_, ?_⟩
  · intro a ha; rw [hP]; exact hinv.lt _ (swapPos_lt hi hp2 ha)
  · intro a b ha hb hab
    rw [hP, hP] at hab
    have := hinv.inj _ _ (swapPos_lt hi hp2 ha) (swapPos_lt hi hp2 hb) hab
    have h2 := congrArg (swapPos i p) this
    rwa [swapPos_swap, swapPos_swap] at h2
  · intro a b ha hb
    rw [hrem a b (by omega) hb]
    rcases Nat.lt_succ_iff_lt_or_eq.1 ha with hlt | rfl
    · have e3 : swapPos i p a = a := by unfold swapPos; rw [if_neg (by omega), if_neg (by omega)]
      rw [e3, hE, hinv.done a _ hlt (swapPos_lt hi hp2 hb), hinv.done a p hlt hp2]
      simp
    · rw [hsi, hsym p]
      field_simp
      ring
  · intro j hj hjn
    have : s'.Gjj j = 1 - ∑ k ∈ Finset.range (i + 1), s'.G j k ^ 2 := by
      simp only [hs', cholStep]
      rw [if_pos (by omega)]
    rw [this]
    unfold rem
    rw [gauss_self]
    simp only [sq]
  · intro c
    have hs := schwarz hsym hinv.psd hp2 hpos (fun a => c (swapPos i p a))
    have e : ∑ a ∈ Finset.range n, ∑ b ∈ Finset.range n, c a * c b * rem x σ (i + 1) s' a b =
        ∑ a ∈ Finset.range n, ∑ b ∈ Finset.range n, c (swapPos i p a) * c (swapPos i p b) * E a b -
          (∑ a ∈ Finset.range n, c (swapPos i p a) * E a p) ^ 2 / E p p := by
      have e1 : ∑ a ∈ Finset.range n, ∑ b ∈ Finset.range n, c a * c b * rem x σ (i + 1) s' a b =
          ∑ a ∈ Finset.range n, ∑ b ∈ Finset.range n, c a * c b *
            (E (swapPos i p a) (swapPos i p b) - E (swapPos i p a) p * E (swapPos i p b) p / E p p) :=
        Finset.sum_congr rfl fun a ha => Finset.sum_congr rfl fun b hb => by
          rw [hrem a b (Finset.mem_range.1 ha) (Finset.mem_range.1 hb)]
      rw [e1]
      have e2 : ∑ a ∈ Finset.range n, ∑ b ∈ Finset.range n, c a * c b *
            (E (swapPos i p a) (swapPos i p b) - E (swapPos i p a) p * E (swapPos i p b) p / E p p) =
          ∑ a ∈ Finset.range n, ∑ b ∈ Finset.range n, c (swapPos i p a) * c (swapPos i p b) * (E a b - E a p * E b p / E p p) := by
        rw [← sum_swap hi hp2 (fun a => ∑ b ∈ Finset.range n, c (swapPos i p a) * c (swapPos i p b) * (E a b - E a p * E b p / E p p))]
        refine Finset.sum_congr rfl fun a _ => ?_
        rw [← sum_swap hi hp2 (fun b => c (swapPos i p (swapPos i p a)) * c (swapPos i p b) * (E (swapPos i p a) b - E (swapPos i p a) p * E b p / E p p))]
        refine Finset.sum_congr rfl fun b _ => ?_
        rw [swapPos_swap, swapPos_swap]
      rw [e2, sq, Finset.sum_mul_sum, Finset.sum_div, ← Finset.sum_sub_distrib]
      refine Finset.sum_congr rfl fun a _ => ?_
      rw [Finset.sum_div, ← Finset.sum_sub_distrib]
      refine Finset.sum_congr rfl fun b _ => ?_
      ring
    rw [e]
    linarith

theorem inv_init (n : Nat) (x : Nat → ℝ) (σ : ℝ) : Inv n x σ 0 ⟨fun a => a, fun _ _ => 0, fun _ => 1⟩ := by
  refine ⟨fun a h => h, fun a b _ _ h => h, fun a b h => absurd h (Nat.not_lt_zero a), fun j _ _ => by simp [rem, gauss_self], fun c => ?_⟩
  have h := gauss_psd (n := n) σ (fun r => x r) (fun r => c r)
  refine h.trans_eq ?_
  simp only [rem, Finset.range_zero, Finset.sum_empty, sub_zero]
  rw [Finset.sum_range]
  exact Finset.sum_congr rfl fun a _ => by rw [Finset.sum_range]

theorem cholLoop_spec {n : Nat} {x : Nat → ℝ} {σ tol : ℝ} (htol : 0 ≤ tol) : ∀ fuel i s, i ≤ n → n < fuel + i → Inv n x σ i s →
    ∃ m s', cholLoop n x σ tol fuel i s = some (m, s') ∧ m ≤ n ∧ Inv n x σ m s' ∧ ∑ j ∈ Finset.Ico m n, s'.Gjj j ≤ tol
  | 0, i, s, h1, h2, _ => by omega
  | fuel + 1, i, s, h1, h2, hinv => by
    unfold cholLoop
    split_ifs with h
    · have hi : i < n := by
        by_contra hcon
        have : i = n := by omega
        subst this
        simp at h
        linarith
      exact cholLoop_spec htol fuel (i + 1) _ hi (by omega) (inv_step htol hi hinv h)
    · exact ⟨i, s, rfl, h1, hinv, not_lt.1 h⟩

/-! ### The factor in the order of the observations -/

theorem find_range {n : Nat} {P : Nat → Nat} (hinj : ∀ a b, a < n → b < n → P a = P b → a = b) {a : Nat} (ha : a < n) : position n P (P a) = a := by
  unfold position
  cases h : (List.range n).find? (fun b => decide (P b = P a)) with
  | none =>
    have := List.find?_eq_none.1 h a (List.mem_range.2 ha)
    simp at this
  | some b =>
    have h1 := List.find?_some h
    have h2 := List.mem_range.1 (List.mem_of_find?_eq_some h)
    simp only [Option.getD_some]
    exact hinj b a h2 ha (by simpa using h1)

theorem sum_perm {n : Nat} {P : Nat → Nat} (hlt : ∀ a, a < n → P a < n) (hinj : ∀ a b, a < n → b < n → P a = P b → a = b) (f : Nat → ℝ) :
    ∑ a ∈ Finset.range n, f (P a) = ∑ r ∈ Finset.range n, f r := by
  have himg : (Finset.range n).image P = Finset.range n := by
    refine Finset.eq_of_subset_of_card_le ?_ ?_
    · intro r hr
      obtain ⟨a, ha, rfl⟩ := Finset.mem_image.1 hr
      exact Finset.mem_range.2 (hlt a (Finset.mem_range.1 ha))
    · rw [Finset.card_image_of_injOn]
      intro a ha b hb hab
      exact hinj a b (Finset.mem_range.1 ha) (Finset.mem_range.1 hb) hab
  conv_rhs => rw [← himg]
  rw [Finset.sum_image]
  intro a ha b hb hab
  exact hinj a b (Finset.mem_range.1 ha) (Finset.mem_range.1 hb) hab

/-- What is missing in `G Gᵀ`, in the order of the observations. -/
noncomputable def gap (n : Nat) (x : Nat → ℝ) (σ : ℝ) (m : Nat) (s : Chol) (r t : Nat) : ℝ :=
  gauss σ (x r) (x t) - ∑ k ∈ Finset.range m, s.G (position n s.P r) k * s.G (position n s.P t) k

theorem gap_rem {n m : Nat} {x : Nat → ℝ} {σ : ℝ} {s : Chol} (hinv : Inv n x σ m s) {a b : Nat} (ha : a < n) (hb : b < n) :
    gap n x σ m s (s.P a) (s.P b) = rem x σ m s a b := by
  unfold gap rem
  rw [find_range hinv.inj ha, find_range hinv.inj hb]

theorem gap_form {n m : Nat} {x : Nat → ℝ} {σ : ℝ} {s : Chol} (hinv : Inv n x σ m s) (c : Nat → ℝ) :
    ∑ r ∈ Finset.range n, ∑ t ∈ Finset.range n, c r * c t * gap n x σ m s r t =
      ∑ a ∈ Finset.range n, ∑ b ∈ Finset.range n, c (s.P a) * c (s.P b) * rem x σ m s a b := by
  rw [← sum_perm hinv.lt hinv.inj (fun r => ∑ t ∈ Finset.range n, c r * c t * gap n x σ m s r t)]
  refine Finset.sum_congr rfl fun a ha => ?_
  rw [← sum_perm hinv.lt hinv.inj (fun t => c (s.P a) * c t * gap n x σ m s (s.P a) t)]
  refine Finset.sum_congr rfl fun b hb => ?_
  rw [gap_rem hinv (Finset.mem_range.1 ha) (Finset.mem_range.1 hb)]

theorem gap_psd {n m : Nat} {x : Nat → ℝ} {σ : ℝ} {s : Chol} (hinv : Inv n x σ m s) (c : Nat → ℝ) :
    0 ≤ ∑ r ∈ Finset.range n, ∑ t ∈ Finset.range n, c r * c t * gap n x σ m s r t := by
  rw [gap_form hinv]
  exact hinv.psd _

theorem gap_trace {n m : Nat} {x : Nat → ℝ} {σ tol : ℝ} {s : Chol} (hinv : Inv n x σ m s) (hm : m ≤ n)
    (h : ∑ j ∈ Finset.Ico m n, s.Gjj j ≤ tol) : ∑ r ∈ Finset.range n, gap n x σ m s r r ≤ tol := by
  rw [← sum_perm hinv.lt hinv.inj (fun r => gap n x σ m s r r)]
  have e : ∑ a ∈ Finset.range n, gap n x σ m s (s.P a) (s.P a) = ∑ a ∈ Finset.range n, rem x σ m s a a :=
    Finset.sum_congr rfl fun a ha => gap_rem hinv (Finset.mem_range.1 ha) (Finset.mem_range.1 ha)
  rw [e, ← Finset.sum_range_add_sum_Ico _ hm]
  have e1 : ∑ a ∈ Finset.range m, rem x σ m s a a = 0 :=
    Finset.sum_eq_zero fun a ha => hinv.done a a (Finset.mem_range.1 ha) (by have := Finset.mem_range.1 ha; omega)
  rw [e1, zero_add]
  refine le_trans (le_of_eq ?_) h
  exact Finset.sum_congr rfl fun j hj => (hinv.diag j (Finset.mem_Ico.1 hj).1 (Finset.mem_Ico.1 hj).2).symm

/-- An entry of a positive semidefinite matrix is bounded by the diagonal. -/
theorem psd_entry {n : Nat} {E : Nat → Nat → ℝ} (hsym : ∀ a b, E a b = E b a)
    (hpsd : ∀ c : Nat → ℝ, 0 ≤ ∑ a ∈ Finset.range n, ∑ b ∈ Finset.range n, c a * c b * E a b) {a b : Nat} (ha : a < n) (hb : b < n) :
    0 ≤ E a a ∧ E a b ^ 2 ≤ E a a * E b b := by
  have hA : a ∈ Finset.range n := Finset.mem_range.2 ha
  have hB : b ∈ Finset.range n := Finset.mem_range.2 hb
  have single : ∀ p q, p < n → q < n → ∀ s t : ℝ, ∑ i ∈ Finset.range n, ∑ j ∈ Finset.range n,
      ((if i = p then s else 0) * (if j = q then t else 0)) * E i j = s * t * E p q := by
    intro p q hp hq s t
    rw [Finset.sum_eq_single p, Finset.sum_eq_single q]
    · simp
    · intro j _ hj; simp [hj]
    · intro h; exact absurd (Finset.mem_range.2 hq) h
    · intro i _ hi; simp [hi]
    · intro h; exact absurd (Finset.mem_range.2 hp) h
  have key : ∀ s t : ℝ, 0 ≤ s * s * E a a + s * t * E a b + t * s * E b a + t * t * E b b := by
    intro s t
    have h := hpsd (fun i => (if i = a then s else 0) + (if i = b then t else 0))
    have e : ∀ i j, ((if i = a then s else 0) + (if i = b then t else 0)) * ((if j = a then s else 0) + (if j = b then t else 0)) * E i j =
        ((if i = a then s else 0) * (if j = a then s else 0)) * E i j + ((if i = a then s else 0) * (if j = b then t else 0)) * E i j +
        (((if i = b then t else 0) * (if j = a then s else 0)) * E i j + ((if i = b then t else 0) * (if j = b then t else 0)) * E i j) := by
      intro i j; ring
    simp only [e, Finset.sum_add_distrib] at h
    rw [single a a ha ha, single a b ha hb, single b a hb ha, single b b hb hb] at h
    linarith
  refine ⟨by have := key 1 0; simpa using this, ?_⟩
  have h : discrim (E a a) (2 * E a b) (E b b) ≤ 0 := discrim_le_zero fun t => by
    have := key t 1
    rw [hsym b a] at this
    nlinarith
  unfold discrim at h
  nlinarith

/-- A positive semidefinite form is bounded by the trace. -/
theorem psd_le_trace {n : Nat} {E : Nat → Nat → ℝ} (hsym : ∀ a b, E a b = E b a)
    (hpsd : ∀ c : Nat → ℝ, 0 ≤ ∑ a ∈ Finset.range n, ∑ b ∈ Finset.range n, c a * c b * E a b) (c : Nat → ℝ) :
    ∑ a ∈ Finset.range n, ∑ b ∈ Finset.range n, c a * c b * E a b ≤ (∑ a ∈ Finset.range n, E a a) * ∑ a ∈ Finset.range n, c a ^ 2 := by
  have h1 : ∀ a ∈ Finset.range n, ∀ b ∈ Finset.range n, c a * c b * E a b ≤ (|c a| * √(E a a)) * (|c b| * √(E b b)) := by
    intro a ha b hb
    obtain ⟨hna, hab⟩ := psd_entry hsym hpsd (Finset.mem_range.1 ha) (Finset.mem_range.1 hb)
    have habs : |E a b| ≤ √(E a a) * √(E b b) := by
      rw [← Real.sqrt_mul hna]
      exact Real.abs_le_sqrt hab
    calc c a * c b * E a b ≤ |c a * c b * E a b| := le_abs_self _
      _ = |c a| * |c b| * |E a b| := by rw [abs_mul, abs_mul]
      _ ≤ |c a| * |c b| * (√(E a a) * √(E b b)) := mul_le_mul_of_nonneg_left habs (by positivity)
      _ = _ := by ring
  calc _ ≤ ∑ a ∈ Finset.range n, ∑ b ∈ Finset.range n, (|c a| * √(E a a)) * (|c b| * √(E b b)) :=
        Finset.sum_le_sum fun a ha => Finset.sum_le_sum fun b hb => h1 a ha b hb
    _ = (∑ a ∈ Finset.range n, |c a| * √(E a a)) ^ 2 := by rw [sq, Finset.sum_mul_sum]
    _ ≤ (∑ a ∈ Finset.range n, |c a| ^ 2) * ∑ a ∈ Finset.range n, √(E a a) ^ 2 := Finset.sum_mul_sq_le_sq_mul_sq _ _ _
    _ = _ := by
      rw [mul_comm]
      congr 1
      · exact Finset.sum_congr rfl fun a ha => Real.sq_sqrt (psd_entry hsym hpsd (Finset.mem_range.1 ha) (Finset.mem_range.1 ha)).1
      · exact Finset.sum_congr rfl fun a _ => sq_abs _

theorem gap_symm (n : Nat) (x : Nat → ℝ) (σ : ℝ) (m : Nat) (s : Chol) (r t : Nat) : gap n x σ m s r t = gap n x σ m s t r := by
  unfold gap
  rw [gauss_symm]
  congr 1
  exact Finset.sum_congr rfl fun k _ => mul_comm _ _

theorem centre_sum {n : Nat} (hn : n ≠ 0) (v : Fin n → ℝ) : ∑ r, centre v r = 0 := by
  have : (n : ℝ) ≠ 0 := Nat.cast_ne_zero.2 hn
  unfold centre
  rw [Finset.sum_sub_distrib, Finset.sum_const, Finset.card_univ, Fintype.card_fin, nsmul_eq_mul, mul_div_cancel₀ _ this, sub_self]

theorem centre_sq_le {n : Nat} (v : Fin n → ℝ) : ∑ r, centre v r ^ 2 ≤ v ⬝ᵥ v := by
  rcases Nat.eq_zero_or_pos n with rfl | hn
  · simp
  have hn' : (n : ℝ) ≠ 0 := Nat.cast_ne_zero.2 hn.ne'
  have hpos : (0 : ℝ) < n := Nat.cast_pos.2 hn
  have e : ∑ r, centre v r ^ 2 = v ⬝ᵥ v - (∑ q, v q) ^ 2 / n := by
    unfold centre dotProduct
    set T := ∑ q, v q
    have : ∀ r, (v r - T / n) ^ 2 = v r * v r - 2 * (T / n) * v r + (T / n) ^ 2 := fun r => by ring
    simp only [this, Finset.sum_add_distrib, Finset.sum_sub_distrib, ← Finset.mul_sum, Finset.sum_const, Finset.card_univ, Fintype.card_fin,
      nsmul_eq_mul]
    field_simp
    ring
  rw [e]
  have : 0 ≤ (∑ q, v q) ^ 2 / (n : ℝ) := by positivity
  linarith

/-- Centring the columns amounts to centring the coefficients. -/
theorem centredG_mulVec {n m : Nat} (s : Chol) (v : Fin n → ℝ) (k : Fin m) :
    ((centredG n m s)ᵀ *ᵥ v) k = ∑ r : Fin n, s.G (position n s.P r) k * centre v r := by
  simp only [mulVec, dotProduct, transpose_apply, centredG, centre, sub_mul, mul_sub, Finset.sum_sub_distrib]
  congr 1
  rw [← Finset.mul_sum, ← Finset.sum_mul]
  ring

theorem near_chol {n m : Nat} {z : Fin n → ℝ} {σ tol : ℝ} {s : Chol}
    (hinv : Inv n (fun r => if h : r < n then z ⟨r, h⟩ else 0) σ m s) (hm : m ≤ n) (h : ∑ j ∈ Finset.Ico m n, s.Gjj j ≤ tol) (v : Fin n → ℝ) :
    ((centredG n m s)ᵀ *ᵥ v) ⬝ᵥ ((centredG n m s)ᵀ *ᵥ v) ≤ gramForm σ z v ∧
      gramForm σ z v ≤ ((centredG n m s)ᵀ *ᵥ v) ⬝ᵥ ((centredG n m s)ᵀ *ᵥ v) + tol * (v ⬝ᵥ v) := by
  set x : Nat → ℝ := fun r => if h : r < n then z ⟨r, h⟩ else 0 with hx
  set c : Nat → ℝ := fun r => if h : r < n then centre v ⟨r, h⟩ else 0 with hc
  have hxr : ∀ r : Fin n, x r = z r := fun r => by simp [hx]
  have hcr : ∀ r : Fin n, c r = centre v r := fun r => by simp [hc]
  have e : ∑ r ∈ Finset.range n, ∑ t ∈ Finset.range n, c r * c t * gap n x σ m s r t =
      gramForm σ z v - ((centredG n m s)ᵀ *ᵥ v) ⬝ᵥ ((centredG n m s)ᵀ *ᵥ v) := by
    unfold gramForm dotProduct
    simp only [centredG_mulVec]
    have e1 : ∑ k : Fin m, (∑ r : Fin n, s.G (position n s.P r) k * centre v r) * (∑ r : Fin n, s.G (position n s.P r) k * centre v r) =
        ∑ r : Fin n, ∑ t : Fin n, centre v r * centre v t * ∑ k ∈ Finset.range m, s.G (position n s.P r) k * s.G (position n s.P t) k := by
      simp only [Finset.sum_mul_sum]
      rw [Finset.sum_comm]
      refine Finset.sum_congr rfl fun r _ => ?_
      rw [Finset.sum_comm]
      refine Finset.sum_congr rfl fun t _ => ?_
      rw [Finset.mul_sum, Finset.sum_range]
      exact Finset.sum_congr rfl fun k _ => by ring
    rw [e1, ← Finset.sum_sub_distrib, Finset.sum_range]
    refine Finset.sum_congr rfl fun r _ => ?_
    rw [← Finset.sum_sub_distrib, Finset.sum_range]
    refine Finset.sum_congr rfl fun t _ => ?_
    rw [hcr, hcr]
    unfold gap
    rw [hxr, hxr]
    ring
  have h0 := gap_psd hinv c
  have h1 := psd_le_trace (gap_symm n x σ m s) (fun c => gap_psd hinv c) c
  have h2 := gap_trace hinv hm h
  have h3 : ∑ a ∈ Finset.range n, c a ^ 2 ≤ v ⬝ᵥ v := by
    rw [Finset.sum_range]
    simp only [hcr]
    exact centre_sq_le v
  have h4 : 0 ≤ ∑ a ∈ Finset.range n, c a ^ 2 := Finset.sum_nonneg fun _ _ => sq_nonneg _
  have h5 : 0 ≤ ∑ r ∈ Finset.range n, gap n x σ m s r r := Finset.sum_nonneg fun r hr =>
    (psd_entry (gap_symm n x σ m s) (fun c => gap_psd hinv c) (Finset.mem_range.1 hr) (Finset.mem_range.1 hr)).1
  rw [e] at h0 h1
  refine ⟨by linarith, ?_⟩
  have h6 : (∑ r ∈ Finset.range n, gap n x σ m s r r) * ∑ a ∈ Finset.range n, c a ^ 2 ≤ tol * (v ⬝ᵥ v) :=
    mul_le_mul h2 h3 h4 (h5.trans h2)
  linarith

/-! ### The singular value decomposition -/

/-- What is assumed of the eigenvalue routines and of the sorting. -/
structure Exact (R : Routines) : Prop where
  eigh : ∀ m (W : Matrix (Fin m) (Fin m) ℝ), Wᵀ = W → IsEigenDecomposition W (R.eigh m W).1 (R.eigh m W).2
  descending : ∀ m D l, (R.descending m D l).Perm l
  eigsh : ∀ m (W : Matrix (Fin m) (Fin m) ℝ), Wᵀ = W → m ≠ 0 → IsSmallestEigenvalue W (R.eigsh m W)

/-- The kept eigenvalues. -/
noncomputable def kept (R : Routines) {n m : Nat} (G : Matrix (Fin n) (Fin m) ℝ) (κ : ℝ) : Fin (indexes R G κ).length → ℝ :=
  fun a => (R.eigh m (Gᵀ * G)).1 ((indexes R G κ).get a)

theorem sum_indexes {R : Routines} (hR : Exact R) {n m : Nat} (G : Matrix (Fin n) (Fin m) ℝ) (κ : ℝ) (f : Fin m → ℝ) :
    ∑ a, f ((indexes R G κ).get a) = ∑ k, if n * (κ * (1 / 100)) ≤ (R.eigh m (Gᵀ * G)).1 k then f k else 0 := by
  classical
  have e : ∑ a, f ((indexes R G κ).get a) = ((indexes R G κ).map f).sum := by
    conv_rhs => rw [← List.ofFn_get (indexes R G κ)]
    rw [List.map_ofFn, List.sum_ofFn]
    rfl
  have hp : (indexes R G κ).Perm ((List.finRange m).filter (fun k => decide (n * (κ * (1 / 100)) ≤ (R.eigh m (Gᵀ * G)).1 k))) := by
    unfold indexes
    convert hR.descending m _ _
  rw [e, (hp.map f).sum_eq]
  generalize hq : (fun k => decide (n * (κ * (1 / 100)) ≤ (R.eigh m (Gᵀ * G)).1 k)) = q
  have e2 : ∀ l : List (Fin m), ((l.filter q).map f).sum = (l.map (fun k => if n * (κ * (1 / 100)) ≤ (R.eigh m (Gᵀ * G)).1 k then f k else 0)).sum := by
    intro l
    induction l with
    | nil => rfl
    | cons k l ih =>
      by_cases hk : n * (κ * (1 / 100)) ≤ (R.eigh m (Gᵀ * G)).1 k
      · have : q k = true := by rw [← hq]; exact decide_eq_true hk
        rw [List.filter_cons_of_pos this, List.map_cons, List.map_cons, List.sum_cons, List.sum_cons, ih, if_pos hk]
      · have : ¬ q k = true := by rw [← hq]; simpa using hk
        rw [List.filter_cons_of_neg this, List.map_cons, List.sum_cons, ih, if_neg hk, zero_add]
  rw [e2, ← List.ofFn_eq_map, List.sum_ofFn]

theorem indexes_mem {R : Routines} (hR : Exact R) {n m : Nat} (G : Matrix (Fin n) (Fin m) ℝ) (κ : ℝ) (a : Fin (indexes R G κ).length) :
    n * (κ * (1 / 100)) ≤ kept R G κ a := by
  classical
  have hp : (indexes R G κ).Perm ((List.finRange m).filter (fun k => decide (n * (κ * (1 / 100)) ≤ (R.eigh m (Gᵀ * G)).1 k))) := by
    unfold indexes
    convert hR.descending m _ _
  have := hp.mem_iff.1 (List.get_mem (indexes R G κ) a)
  exact of_decide_eq_true (List.mem_filter.1 this).2

theorem indexes_nodup {R : Routines} (hR : Exact R) {n m : Nat} (G : Matrix (Fin n) (Fin m) ℝ) (κ : ℝ) : (indexes R G κ).Nodup := by
  classical
  have hp : (indexes R G κ).Perm ((List.finRange m).filter (fun k => decide (n * (κ * (1 / 100)) ≤ (R.eigh m (Gᵀ * G)).1 k))) := by
    unfold indexes
    convert hR.descending m _ _
  exact hp.nodup_iff.2 ((List.nodup_finRange m).filter _)

/-- The columns of `G A` are orthogonal with squared norms `D`. -/
theorem GA_orth {n m : Nat} {G : Matrix (Fin n) (Fin m) ℝ} {D : Fin m → ℝ} {A : Matrix (Fin m) (Fin m) ℝ}
    (h : IsEigenDecomposition (Gᵀ * G) D A) : (G * A)ᵀ * (G * A) = diagonal D := by
  obtain ⟨h1, h2⟩ := h
  rw [transpose_mul, Matrix.mul_assoc, ← Matrix.mul_assoc Gᵀ, h2, ← Matrix.mul_assoc, h1, Matrix.one_mul]

theorem GA_dot {n m : Nat} {G : Matrix (Fin n) (Fin m) ℝ} {D : Fin m → ℝ} {A : Matrix (Fin m) (Fin m) ℝ}
    (h : IsEigenDecomposition (Gᵀ * G) D A) (k l : Fin m) : ∑ r, (G * A) r k * (G * A) r l = if k = l then D k else 0 := by
  have := congrFun (congrFun (GA_orth h) k) l
  rw [diagonal_apply, mul_apply] at this
  exact this

/-- Orthogonal vectors of squared norm at most `ε` see at most `ε` of a vector. -/
theorem bessel_small {n m : Nat} {w : Fin m → Fin n → ℝ} {D : Fin m → ℝ} (horth : ∀ k l, ∑ r, w k r * w l r = if k = l then D k else 0)
    {ε : ℝ} (hε0 : 0 ≤ ε) (hε : ∀ k, D k ≤ ε) (v : Fin n → ℝ) : ∑ k, (∑ r, w k r * v r) ^ 2 ≤ ε * (v ⬝ᵥ v) := by
  set t : Fin m → ℝ := fun k => ∑ r, w k r * v r with ht
  set S := ∑ k, t k ^ 2 with hS
  set u : Fin n → ℝ := fun r => ∑ k, t k * w k r with hu
  have huv : u ⬝ᵥ v = S := by
    simp only [dotProduct, hu, hS, Finset.sum_mul]
    rw [Finset.sum_comm]
    refine Finset.sum_congr rfl fun k _ => ?_
    rw [sq]
    conv_rhs => rw [ht]
    simp only
    rw [Finset.mul_sum]
    refine Finset.sum_congr rfl fun r _ => ?_
    ring
  have huu : u ⬝ᵥ u ≤ ε * S := by
    have e : u ⬝ᵥ u = ∑ k, t k ^ 2 * D k := by
      simp only [dotProduct, hu, Finset.sum_mul_sum]
      rw [Finset.sum_comm]
      refine Finset.sum_congr rfl fun k _ => ?_
      rw [Finset.sum_comm]
      have : ∀ l, ∑ r, t k * w k r * (t l * w l r) = if k = l then t k * t l * D k else 0 := by
        intro l
        have e1 : ∑ r, t k * w k r * (t l * w l r) = t k * t l * ∑ r, w k r * w l r := by
          rw [Finset.mul_sum]; exact Finset.sum_congr rfl fun r _ => by ring
        rw [e1, horth]
        split_ifs <;> simp
      simp only [this, Finset.sum_ite_eq, Finset.mem_univ, if_true]
      ring
    rw [e, hS, Finset.mul_sum]
    refine Finset.sum_le_sum fun k _ => ?_
    rw [mul_comm]
    exact mul_le_mul_of_nonneg_right (hε k) (sq_nonneg _)
  have hcs := dot_sq_le u v
  rw [huv] at hcs
  have hS0 : 0 ≤ S := Finset.sum_nonneg fun k _ => sq_nonneg _
  have hv0 := dot_self_nonneg v
  by_contra hcon
  have hcon : ε * (v ⬝ᵥ v) < S := not_le.1 hcon
  have hSpos : 0 < S := (mul_nonneg hε0 hv0).trans_lt hcon
  have h1 : S ^ 2 ≤ ε * S * (v ⬝ᵥ v) := hcs.trans (mul_le_mul_of_nonneg_right huu hv0)
  have h2 : S * (ε * (v ⬝ᵥ v)) < S * S := mul_lt_mul_of_pos_left hcon hSpos
  nlinarith

theorem svdU_apply (R : Routines) {n m : Nat} (G : Matrix (Fin n) (Fin m) ℝ) (κ : ℝ) (r : Fin n) (a : Fin (indexes R G κ).length) :
    svdU R G κ r a = (G * (R.eigh m (Gᵀ * G)).2) r ((indexes R G κ).get a) * √(1 / kept R G κ a) := by
  unfold svdU kept
  rw [mul_apply, Finset.sum_mul]
  exact Finset.sum_congr rfl fun k _ => by ring

theorem svdU_orth {R : Routines} (hR : Exact R) {n m : Nat} (G : Matrix (Fin n) (Fin m) ℝ) {κ : ℝ} (hκ : 0 < κ) (hn : n ≠ 0) :
    (svdU R G κ)ᵀ * svdU R G κ = 1 := by
  have hG : (Gᵀ * G)ᵀ = Gᵀ * G := by rw [transpose_mul, transpose_transpose]
  have hdec := hR.eigh m (Gᵀ * G) hG
  have hn' : (0 : ℝ) < n := Nat.cast_pos.2 (Nat.pos_of_ne_zero hn)
  ext a b
  rw [mul_apply, one_apply]
  simp only [transpose_apply, svdU_apply]
  have e : ∑ r, (G * (R.eigh m (Gᵀ * G)).2) r ((indexes R G κ).get a) * √(1 / kept R G κ a) *
      ((G * (R.eigh m (Gᵀ * G)).2) r ((indexes R G κ).get b) * √(1 / kept R G κ b)) =
      (√(1 / kept R G κ a) * √(1 / kept R G κ b)) * ∑ r, (G * (R.eigh m (Gᵀ * G)).2) r ((indexes R G κ).get a) *
        (G * (R.eigh m (Gᵀ * G)).2) r ((indexes R G κ).get b) := by
    rw [Finset.mul_sum]; exact Finset.sum_congr rfl fun r _ => by ring
  rw [e, GA_dot hdec]
  have hpos : 0 < kept R G κ a := lt_of_lt_of_le (by positivity) (indexes_mem hR G κ a)
  by_cases hab : a = b
  · subst hab
    rw [if_pos rfl, if_pos rfl, Real.mul_self_sqrt (by positivity)]
    exact one_div_mul_cancel hpos.ne'
  · rw [if_neg hab, if_neg, mul_zero]
    intro h
    exact hab (List.nodup_iff_injective_get.1 (indexes_nodup hR G κ) h)

theorem lowRank_form {n p : Nat} (U : Matrix (Fin n) (Fin p) ℝ) (D : Fin p → ℝ) (v : Fin n → ℝ) :
    v ⬝ᵥ lowRank U D *ᵥ v = ∑ a, D a * (∑ r, U r a * v r) ^ 2 := by
  rw [lowRank_mulVec, dotProduct_mulVec, ← mulVec_transpose]
  unfold dotProduct
  refine Finset.sum_congr rfl fun a _ => ?_
  rw [mulVec_diagonal]
  simp only [mulVec, dotProduct, transpose_apply]
  ring

theorem lowRank_symm {n p : Nat} (U : Matrix (Fin n) (Fin p) ℝ) (D : Fin p → ℝ) : (lowRank U D)ᵀ = lowRank U D := by
  unfold lowRank
  rw [transpose_mul, transpose_mul, transpose_transpose, diagonal_transpose, Matrix.mul_assoc]

theorem svd_form {R : Routines} (hR : Exact R) {n m : Nat} (G : Matrix (Fin n) (Fin m) ℝ) {κ : ℝ} (hκ : 0 < κ) (hn : n ≠ 0) (v : Fin n → ℝ) :
    v ⬝ᵥ lowRank (svdU R G κ) (kept R G κ) *ᵥ v = ∑ k, if n * (κ * (1 / 100)) ≤ (R.eigh m (Gᵀ * G)).1 k then
      (∑ r, (G * (R.eigh m (Gᵀ * G)).2) r k * v r) ^ 2 else 0 := by
  have hn' : (0 : ℝ) < n := Nat.cast_pos.2 (Nat.pos_of_ne_zero hn)
  rw [lowRank_form, ← sum_indexes hR G κ (fun k => (∑ r, (G * (R.eigh m (Gᵀ * G)).2) r k * v r) ^ 2)]
  refine Finset.sum_congr rfl fun a _ => ?_
  have hpos : 0 < kept R G κ a := lt_of_lt_of_le (by positivity) (indexes_mem hR G κ a)
  simp only [svdU_apply]
  have e : ∑ r, (G * (R.eigh m (Gᵀ * G)).2) r ((indexes R G κ).get a) * √(1 / kept R G κ a) * v r =
      √(1 / kept R G κ a) * ∑ r, (G * (R.eigh m (Gᵀ * G)).2) r ((indexes R G κ).get a) * v r := by
    rw [Finset.mul_sum]; exact Finset.sum_congr rfl fun r _ => by ring
  rw [e, mul_pow, Real.sq_sqrt (by positivity), ← mul_assoc, mul_one_div_cancel hpos.ne', one_mul]

theorem near_svd {R : Routines} (hR : Exact R) {n m : Nat} (G : Matrix (Fin n) (Fin m) ℝ) {κ : ℝ} (hκ : 0 < κ) (hn : n ≠ 0) (v : Fin n → ℝ) :
    0 ≤ v ⬝ᵥ lowRank (svdU R G κ) (kept R G κ) *ᵥ v ∧ v ⬝ᵥ lowRank (svdU R G κ) (kept R G κ) *ᵥ v ≤ (Gᵀ *ᵥ v) ⬝ᵥ (Gᵀ *ᵥ v) ∧
      (Gᵀ *ᵥ v) ⬝ᵥ (Gᵀ *ᵥ v) ≤ v ⬝ᵥ lowRank (svdU R G κ) (kept R G κ) *ᵥ v + n * (κ * (1 / 100)) * (v ⬝ᵥ v) := by
  have hG : (Gᵀ * G)ᵀ = Gᵀ * G := by rw [transpose_mul, transpose_transpose]
  have hdec := hR.eigh m (Gᵀ * G) hG
  have hn' : (0 : ℝ) < n := Nat.cast_pos.2 (Nat.pos_of_ne_zero hn)
  rw [svd_form hR G hκ hn]
  set D := (R.eigh m (Gᵀ * G)).1
  set A := (R.eigh m (Gᵀ * G)).2
  set ε := n * (κ * (1 / 100)) with hε
  have hε0 : 0 ≤ ε := by rw [hε]; positivity
  set t : Fin m → ℝ := fun k => (∑ r, (G * A) r k * v r) ^ 2 with ht
  have htot : (Gᵀ *ᵥ v) ⬝ᵥ (Gᵀ *ᵥ v) = ∑ k, t k := by
    have hA : A * Aᵀ = 1 := mul_eq_one_comm.1 hdec.1
    have e1 : (Aᵀ *ᵥ (Gᵀ *ᵥ v)) ⬝ᵥ (Aᵀ *ᵥ (Gᵀ *ᵥ v)) = (Gᵀ *ᵥ v) ⬝ᵥ (Gᵀ *ᵥ v) :=
      dot_mulVec_of_orth (by rw [transpose_transpose]; exact hA) _ _
    rw [← e1, mulVec_mulVec, ← transpose_mul]
    unfold dotProduct
    refine Finset.sum_congr rfl fun k _ => ?_
    simp only [ht, mulVec, dotProduct, transpose_apply]
    ring
  have hsplit : ∑ k, t k = (∑ k, if ε ≤ D k then t k else 0) + ∑ k, if ε ≤ D k then 0 else t k := by
    rw [← Finset.sum_add_distrib]
    exact Finset.sum_congr rfl fun k _ => by split_ifs <;> simp
  have ht0 : ∀ k, 0 ≤ t k := fun k => sq_nonneg _
  have hdrop : ∑ k, (if ε ≤ D k then 0 else t k) ≤ ε * (v ⬝ᵥ v) := by
    have h := bessel_small (w := fun k r => if ε ≤ D k then 0 else (G * A) r k) (D := fun k => if ε ≤ D k then 0 else D k)
      (fun k l => by
        by_cases hkl : k = l
        · subst hkl
          rw [if_pos rfl]
          split_ifs
          · simp
          · rw [GA_dot hdec, if_pos rfl]
        · rw [if_neg hkl]
          by_cases h1 : ε ≤ D k
          · simp [h1]
          · by_cases h2 : ε ≤ D l
            · simp [h2]
            · simp only [h1, h2, if_false]; rw [GA_dot hdec, if_neg hkl])
      hε0 (fun k => by split_ifs with h; exacts [hε0, (not_le.1 h).le]) v
    refine le_trans (Finset.sum_le_sum fun k _ => ?_) h
    split_ifs with hk
    · exact sq_nonneg _
    · exact le_refl _
  rw [htot, hsplit]
  refine ⟨Finset.sum_nonneg fun k _ => ?_, ?_, by linarith⟩
  · split_ifs
    · exact ht0 k
    · exact le_refl _
  · have : 0 ≤ ∑ k, (if ε ≤ D k then 0 else t k) := Finset.sum_nonneg fun k _ => by
      split_ifs
      · exact le_refl _
      · exact ht0 k
    linarith

/-! ### The whole function -/

theorem params_pos (n : Nat) : 0 < (params n).1 ∧ 0 < (params n).2 := by
  unfold params
  split_ifs <;> norm_num

theorem factor_spec {n : Nat} (z : Fin n → ℝ) : ∃ m s, factor n z = some ⟨m, centredG n m s⟩ ∧ m ≤ n ∧
    Inv n (fun r => if h : r < n then z ⟨r, h⟩ else 0) (params n).2 m s ∧ ∑ j ∈ Finset.Ico m n, s.Gjj j ≤ n * (params n).1 * (1 / 100) := by
  have hκ := (params_pos n).1
  have htol : (0 : ℝ) ≤ n * (params n).1 * (1 / 100) := by positivity
  obtain ⟨m, s, h1, h2, h3, h4⟩ := cholLoop_spec (x := fun r => if h : r < n then z ⟨r, h⟩ else 0) (σ := (params n).2) htol (n + 1) 0
    ⟨fun a => a, fun _ _ => 0, fun _ => 1⟩ (Nat.zero_le n) (by omega) (inv_init n _ _)
  refine ⟨m, s, ?_, h2, h3, h4⟩
  unfold factor incompleteCholesky
  rw [h1]

/-- The approximation of the centred Gram matrix that the code works with. -/
noncomputable def approx (R : Routines) {n : Nat} (z : Fin n → ℝ) : Matrix (Fin n) (Fin n) ℝ :=
  match factor n z with
  | some ⟨_, G⟩ => lowRank (svdU R G (params n).1) (kept R G (params n).1)
  | none => 0

theorem approx_near {R : Routines} (hR : Exact R) {n : Nat} (hn : n ≠ 0) (z : Fin n → ℝ) :
    NearGram (params n).2 (2 * (n * (params n).1 / 100)) z (approx R z) := by
  obtain ⟨m, s, h1, h2, h3, h4⟩ := factor_spec z
  unfold approx
  rw [h1]
  refine ⟨lowRank_symm _ _, fun v => ?_⟩
  obtain ⟨a1, a2⟩ := near_chol h3 h2 h4 v
  obtain ⟨b0, b1, b2⟩ := near_svd hR (centredG n m s) (params_pos n).1 hn v
  refine ⟨b0, b1.trans a1, ?_⟩
  refine a2.trans ?_
  have : n * (params n).1 * (1 / 100) * (v ⬝ᵥ v) + n * ((params n).1 * (1 / 100)) * (v ⬝ᵥ v) = 2 * (n * (params n).1 / 100) * (v ⬝ᵥ v) := by ring
  linarith

theorem fcorrZ_max {R : Routines} (hR : Exact R) {n : Nat} (hn : n ≠ 0) {z w : Fin n → ℝ} {v : ℝ} (h : fcorrZ R z w = some v) :
    IsMaxRegCorr (n * (params n).1 / 2) (approx R z) (approx R w) v ∧ 0 ≤ v ∧ v < 1 := by
  obtain ⟨m, s, h1, -, -, -⟩ := factor_spec z
  obtain ⟨m', s', h1', -, -, -⟩ := factor_spec w
  have hn' : (0 : ℝ) < n := Nat.cast_pos.2 (Nat.pos_of_ne_zero hn)
  have hκ := (params_pos n).1
  unfold fcorrZ at h
  rw [h1, h1'] at h
  unfold approx
  rw [h1, h1']
  simp only at h ⊢
  set G := centredG n m s
  set L := centredG n m' s'
  split_ifs at h with h0
  have hpos : ∀ {m : Nat} (G : Matrix (Fin n) (Fin m) ℝ) a, 0 < kept R G (params n).1 a := fun G a =>
    lt_of_lt_of_le (by positivity) (indexes_mem hR G _ a)
  have := max_of_smallest (svdU_orth hR G hκ hn) (svdU_orth hR L hκ hn) (hpos G) (hpos L) (c := n * (params n).1 / 2) (by positivity) hn
    (hR.eigsh _ _ (blocks_symm _) h0)
  rw [← Option.some.inj h]
  exact this

theorem fcorrZ_comm {R : Routines} (hR : Exact R) {n : Nat} (hn : n ≠ 0) (z w : Fin n → ℝ) : fcorrZ R z w = fcorrZ R w z := by
  cases h : fcorrZ R z w with
  | none =>
    cases h' : fcorrZ R w z with
    | none => rfl
    | some v' =>
      exfalso
      obtain ⟨m, s, h1, -, -, -⟩ := factor_spec z
      obtain ⟨m', s', h1', -, -, -⟩ := factor_spec w
      unfold fcorrZ at h h'
      rw [h1, h1'] at h h'
      simp only at h h'
      split_ifs at h with h0
      rw [if_pos (by rw [Nat.add_comm]; exact h0)] at h'
      exact absurd h' (by simp)
  | some v =>
    cases h' : fcorrZ R w z with
    | none =>
      exfalso
      obtain ⟨m, s, h1, -, -, -⟩ := factor_spec z
      obtain ⟨m', s', h1', -, -, -⟩ := factor_spec w
      unfold fcorrZ at h h'
      rw [h1, h1'] at h h'
      simp only at h h'
      split_ifs at h' with h0
      rw [if_pos (by rw [Nat.add_comm]; exact h0)] at h
      exact absurd h (by simp)
    | some v' =>
      have a := (fcorrZ_max hR hn h).1
      have b := isMaxRegCorr_comm (fcorrZ_max hR hn h').1
      rw [isMaxRegCorr_unique a b]

/-! ### Units -/

theorem kern_neg (σ a b : ℝ) : kern σ (-a) (-b) = kern σ a b := by
  unfold kern sqDist
  congr 3
  ring

theorem cholStep_neg (n : Nat) (x : Nat → ℝ) (σ : ℝ) (i : Nat) (s : Chol) : cholStep n (fun r => -x r) σ i s = cholStep n x σ i s := by
  unfold cholStep
  simp only [kern_neg]

theorem cholLoop_neg (n : Nat) (x : Nat → ℝ) (σ tol : ℝ) : ∀ fuel i s, cholLoop n (fun r => -x r) σ tol fuel i s = cholLoop n x σ tol fuel i s
  | 0, _, _ => rfl
  | fuel + 1, i, s => by
    unfold cholLoop
    rw [cholStep_neg, cholLoop_neg n x σ tol fuel]

theorem factor_neg {n : Nat} (z : Fin n → ℝ) : factor n (fun r => -z r) = factor n z := by
  unfold factor incompleteCholesky
  have : (fun r => if h : r < n then -z ⟨r, h⟩ else 0) = fun r => -(if h : r < n then z ⟨r, h⟩ else 0) := by
    funext r; split_ifs <;> simp
  rw [this, cholLoop_neg]

theorem fcorrZ_neg_left (R : Routines) {n : Nat} (z w : Fin n → ℝ) : fcorrZ R (fun r => -z r) w = fcorrZ R z w := by
  unfold fcorrZ; rw [factor_neg]

theorem fcorrZ_neg_right (R : Routines) {n : Nat} (z w : Fin n → ℝ) : fcorrZ R z (fun r => -w r) = fcorrZ R z w := by
  unfold fcorrZ; rw [factor_neg]

theorem standardize_affine {n : Nat} (hn : n ≠ 0) (x : Fin n → ℝ) {a : ℝ} (ha : a ≠ 0) (b : ℝ) :
    standardize (fun r => a * x r + b) = standardize x ∨ standardize (fun r => a * x r + b) = (standardize x).map (fun z r => -z r) := by
  have hn' : (n : ℝ) ≠ 0 := Nat.cast_ne_zero.2 hn
  have hmean : (∑ r, (a * x r + b)) / n = a * ((∑ r, x r) / n) + b := by
    rw [Finset.sum_add_distrib, ← Finset.mul_sum, Finset.sum_const, Finset.card_univ, Fintype.card_fin, nsmul_eq_mul]
    field_simp
  have hstd : √((∑ r, (a * x r + b - (a * ((∑ r, x r) / n) + b)) ^ 2) / n) = |a| * √((∑ r, (x r - (∑ r, x r) / n) ^ 2) / n) := by
    have : ∀ r, (a * x r + b - (a * ((∑ r, x r) / n) + b)) ^ 2 = a ^ 2 * (x r - (∑ r, x r) / n) ^ 2 := fun r => by ring
    simp only [this]
    rw [← Finset.mul_sum, mul_div_assoc, Real.sqrt_mul (sq_nonneg a), Real.sqrt_sq_eq_abs]
  unfold standardize
  simp only [hmean, hstd]
  set μ := (∑ r, x r) / (n : ℝ)
  set sd := √((∑ r, (x r - μ) ^ 2) / n)
  by_cases h0 : sd = 0
  · left; simp [h0]
  · have hne : |a| * sd ≠ 0 := mul_ne_zero (abs_ne_zero.2 ha) h0
    rw [if_neg hne, if_neg h0]
    rcases lt_or_gt_of_ne ha with h | h
    · right
      rw [Option.map_some]
      congr 1
      funext r
      rw [abs_of_neg h]
      field_simp
      ring
    · left
      congr 1
      funext r
      rw [abs_of_pos h]
      field_simp
      ring

theorem fcorr_affine (R : Routines) {n : Nat} (hn : n ≠ 0) (x y : Fin n → ℝ) {a a' : ℝ} (ha : a ≠ 0) (ha' : a' ≠ 0) (b b' : ℝ) :
    fcorr R (fun r => a * x r + b) (fun r => a' * y r + b') = fcorr R x y := by
  unfold fcorr
  rcases standardize_affine hn x ha b with e | e <;> rcases standardize_affine hn y ha' b' with e' | e' <;> rw [e, e'] <;>
    cases standardize x <;> cases standardize y <;> simp [fcorrZ_neg_left, fcorrZ_neg_right]

end Verif.FCorr
