import Mathlib.Algebra.Order.Field.Basic
import Mathlib.Algebra.Order.BigOperators.Group.Finset
import Mathlib.Algebra.Order.BigOperators.Ring.Finset
import Mathlib.Algebra.BigOperators.Ring.Finset
import Mathlib.Combinatorics.Pigeonhole
import Mathlib.Tactic.Ring
import Mathlib.Tactic.Linarith
import Mathlib.Tactic.Positivity
import Mathlib.Algebra.Order.Archimedean.Basic
import Verif.Model.Lim
import Verif.Spec.Graph

/-! Lemmas about the acyclicity measure and the loops of `lim.py`. -/
set_option autoImplicit false
set_option linter.unusedSectionVars false
namespace Verif.Lim

variable {K : Type} [Field K] [LinearOrder K] [IsStrictOrderedRing K]

/-- The entrywise squares divided by `d`. -/
def aOf (d : Nat) (W : Mat K) : Mat K := fun i j => W i j * W i j / (d : K)

theorem aOf_nonneg (d : Nat) (W : Mat K) (i j : Nat) : 0 ≤ aOf d W i j :=
  div_nonneg (mul_self_nonneg _) (Nat.cast_nonneg d)

theorem eye_nonneg (i j : Nat) : (0 : K) ≤ eye i j := by
  unfold eye; split <;> simp

theorem mOf_eq (d : Nat) (W : Mat K) (i j : Nat) : mOf d W i j = eye i j + aOf d W i j := rfl

theorem mOf_nonneg (d : Nat) (W : Mat K) (i j : Nat) : 0 ≤ mOf d W i j :=
  add_nonneg (eye_nonneg i j) (aOf_nonneg d W i j)

theorem mmul_nonneg (d : Nat) (A B : Mat K) (hA : ∀ i j, 0 ≤ A i j) (hB : ∀ i j, 0 ≤ B i j) (i j : Nat) :
    0 ≤ mmul d A B i j := Finset.sum_nonneg (fun k _ => mul_nonneg (hA i k) (hB k j))

theorem mpow_nonneg (d : Nat) (A : Mat K) (hA : ∀ i j, 0 ≤ A i j) (n : Nat) : ∀ i j, 0 ≤ mpow d A n i j := by
  induction n with
  | zero => intro i j; exact eye_nonneg i j
  | succ n ih => intro i j; exact mmul_nonneg d _ _ ih hA i j

theorem mmul_eye (d : Nat) (P : Mat K) (i j : Nat) (hj : j < d) : mmul d P eye i j = P i j := by
  unfold mmul eye
  rw [Finset.sum_eq_single j]
  · simp
  · intro b _ hb; simp [hb]
  · intro h; exact absurd (Finset.mem_range.2 hj) h

theorem eye_mmul (d : Nat) (P : Mat K) (i j : Nat) (hi : i < d) : mmul d eye P i j = P i j := by
  unfold mmul eye
  rw [Finset.sum_eq_single i]
  · simp
  · intro b _ hb; simp [Ne.symm hb]
  · intro h; exact absurd (Finset.mem_range.2 hi) h

theorem mmul_mOf (d : Nat) (W P : Mat K) (i j : Nat) (hj : j < d) :
    mmul d P (mOf d W) i j = P i j + mmul d P (aOf d W) i j := by
  rw [← mmul_eye d P i j hj]
  unfold mmul
  rw [← Finset.sum_add_distrib]
  refine Finset.sum_congr rfl (fun k _ => ?_)
  rw [mOf_eq, mul_add]

theorem mmul_mono (d : Nat) (A A' B B' : Mat K) (i j : Nat)
    (hA : ∀ k, k < d → 0 ≤ A i k ∧ A i k ≤ A' i k) (hB : ∀ k, k < d → 0 ≤ B k j ∧ B k j ≤ B' k j) :
    mmul d A B i j ≤ mmul d A' B' i j := by
  refine Finset.sum_le_sum (fun k hk => ?_)
  have hk := Finset.mem_range.1 hk
  exact mul_le_mul (hA k hk).2 (hB k hk).2 (hB k hk).1 (le_trans (hA k hk).1 (hA k hk).2)

theorem eye_le_mpow (d : Nat) (W : Mat K) (n : Nat) : ∀ i j, j < d → eye i j ≤ mpow d (mOf d W) n i j := by
  induction n with
  | zero => intro i j _; exact le_refl _
  | succ n ih =>
    intro i j hj
    show _ ≤ mmul d _ _ i j
    rw [mmul_mOf d W _ i j hj]
    have h1 := ih i j hj
    have h2 := mmul_nonneg d (mpow d (mOf d W) n) (aOf d W) (mpow_nonneg d _ (mOf_nonneg d W) n)
      (aOf_nonneg d W) i j
    linarith

theorem apow_le_mpow (d : Nat) (W : Mat K) (n : Nat) :
    ∀ i j, mpow d (aOf d W) n i j ≤ mpow d (mOf d W) n i j := by
  induction n with
  | zero => intro i j; exact le_refl _
  | succ n ih =>
    intro i j
    refine mmul_mono d _ _ _ _ i j (fun k _ => ⟨mpow_nonneg d _ (aOf_nonneg d W) n i k, ih i k⟩)
      (fun k _ => ⟨aOf_nonneg d W k j, ?_⟩)
    rw [mOf_eq]
    have := eye_nonneg (K := K) k j
    linarith

theorem eye_add_apow_le (d : Nat) (W : Mat K) (n : Nat) : ∀ k, 1 ≤ k → k ≤ n → ∀ i j, j < d →
    eye i j + mpow d (aOf d W) k i j ≤ mpow d (mOf d W) n i j := by
  induction n with
  | zero => intro k h1 h2; omega
  | succ n ih =>
    intro k h1 h2 i j hj
    show _ ≤ mmul d _ _ i j
    rw [mmul_mOf d W _ i j hj]
    have h0 := mmul_nonneg d (mpow d (mOf d W) n) (aOf d W) (mpow_nonneg d _ (mOf_nonneg d W) n)
      (aOf_nonneg d W) i j
    rcases Nat.lt_or_ge n k with hk | hk
    · have hk : k = n + 1 := by omega
      subst hk
      have h3 := eye_le_mpow d W n i j hj
      have h4 : mpow d (aOf d W) (n + 1) i j ≤ mmul d (mpow d (mOf d W) n) (aOf d W) i j :=
        mmul_mono d _ _ _ _ i j (fun k _ => ⟨mpow_nonneg d _ (aOf_nonneg d W) n i k, apow_le_mpow d W n i k⟩)
          (fun k _ => ⟨aOf_nonneg d W k j, le_refl _⟩)
      linarith
    · have := ih k h1 hk i j hj
      linarith

theorem hVal_eq (d : Nat) (W : Mat K) (hd : 0 < d) :
    hVal d W = ∑ i ∈ Finset.range d, (mpow d (mOf d W) d i i - 1) := by
  unfold hVal
  rw [Finset.sum_comm, Finset.sum_sub_distrib]
  congr 1
  · refine Finset.sum_congr rfl (fun j _ => ?_)
    have hd' : d = (d - 1) + 1 := by omega
    show _ = mpow d (mOf d W) d j j
    rw [show mpow d (mOf d W) d j j = mpow d (mOf d W) ((d - 1) + 1) j j by rw [← hd']]
    rfl
  · simp

/-- A walk of length `k` as a function of the position. -/
def IsWalk (E : Nat → Nat → Prop) (k : Nat) (f : Nat → Nat) : Prop := ∀ t, t < k → E (f t) (f (t + 1))

theorem walk_of_transGen (E : Nat → Nat → Prop) (a b : Nat) (h : Relation.TransGen E a b) :
    ∃ k f, 1 ≤ k ∧ f 0 = a ∧ f k = b ∧ IsWalk E k f := by
  induction h with
  | @single b h => exact ⟨1, fun t => if t = 0 then a else b, le_refl _, rfl, rfl, fun t ht => by
      have : t = 0 := by omega
      subst this; simpa using h⟩
  | @tail b c _ h ih =>
    obtain ⟨k, f, hk, h0, h1, hw⟩ := ih
    refine ⟨k + 1, fun t => if t ≤ k then f t else c, by omega, by simp [h0], by simp, ?_⟩
    intro t ht
    rcases Nat.lt_or_ge t k with h' | h'
    · have := hw t h'
      simp only [show t ≤ k by omega, show t + 1 ≤ k by omega, if_true]
      exact this
    · have : t = k := by omega
      subst this
      simp only [le_refl, if_true, show ¬ (t + 1 ≤ t) by omega, if_false, h1]
      exact h

theorem transGen_of_walk (E : Nat → Nat → Prop) (k : Nat) (f : Nat → Nat) (hk : 1 ≤ k) (hw : IsWalk E k f) :
    Relation.TransGen E (f 0) (f k) := by
  induction k with
  | zero => omega
  | succ k ih =>
    rcases Nat.eq_zero_or_pos k with h | h
    · subst h; exact Relation.TransGen.single (hw 0 (by omega))
    · exact Relation.TransGen.tail (ih h (fun t ht => hw t (by omega))) (hw k (by omega))

/-- A cycle on nodes below `d` can be shortened to length at most `d`. -/
theorem short_cycle (d : Nat) (E : Nat → Nat → Prop) (hE : ∀ a b, E a b → a < d) (h : ¬ Acyclic E) :
    ∃ k f, 1 ≤ k ∧ k ≤ d ∧ f 0 = f k ∧ IsWalk E k f := by
  classical
  have hex : ∃ k, 1 ≤ k ∧ ∃ f : Nat → Nat, f 0 = f k ∧ IsWalk E k f := by
    unfold Acyclic at h
    push Not at h
    obtain ⟨i, hi⟩ := h
    obtain ⟨k, f, hk, h0, h1, hw⟩ := walk_of_transGen E i i hi
    exact ⟨k, hk, f, by rw [h0, h1], hw⟩
  obtain ⟨hk, f, h0, hw⟩ := Nat.find_spec hex
  have hmin := fun m (hm : m < Nat.find hex) => Nat.find_min hex hm
  generalize Nat.find hex = k at hk h0 hw hmin
  refine ⟨k, f, hk, ?_, h0, hw⟩
  by_contra hgt
  have hgt : d < k := by omega
  obtain ⟨s, hs, t, ht, hst, hf⟩ := Finset.exists_ne_map_eq_of_card_lt_of_maps_to
    (s := Finset.range k) (t := Finset.range d) (f := f) (by simpa using hgt)
    (fun x hx => by
      have hx : x < k := by simpa using hx
      simpa using hE _ _ (hw x hx))
  have hs := Finset.mem_range.1 hs
  have ht := Finset.mem_range.1 ht
  have main : ∀ s t, s < t → t < k → f s = f t → False := by
    intro s t hst ht hf
    refine hmin (t - s) (by omega) ⟨by omega, fun u => f (s + u), ?_, ?_⟩
    · show f (s + 0) = f (s + (t - s))
      rw [show s + (t - s) = t by omega]; exact hf
    · intro u hu
      exact hw (s + u) (by omega)
  rcases Nat.lt_or_gt_of_ne hst with h | h
  · exact main s t h ht hf
  · exact main t s h hs hf.symm

theorem apow_walk (d : Nat) (W : Mat K) (f : Nat → Nat) (k : Nat) (hf : ∀ t, t < k → f t < d) :
    ∏ t ∈ Finset.range k, aOf d W (f t) (f (t + 1)) ≤ mpow d (aOf d W) k (f 0) (f k) := by
  induction k with
  | zero => simp [mpow, eye]
  | succ k ih =>
    rw [Finset.prod_range_succ]
    have h1 := ih (fun t ht => hf t (by omega))
    refine le_trans (mul_le_mul_of_nonneg_right h1 (aOf_nonneg d W _ _)) ?_
    show _ ≤ ∑ l ∈ Finset.range d, _
    exact Finset.single_le_sum (f := fun l => mpow d (aOf d W) k (f 0) l * aOf d W l (f (k + 1)))
      (fun l _ => mul_nonneg (mpow_nonneg d _ (aOf_nonneg d W) k _ _) (aOf_nonneg d W _ _))
      (Finset.mem_range.2 (hf k (by omega)))

/-- The directed edges of a LiM matrix: `W[a, b]` is the weight of `a → b` (the data are `X @ W`). -/
def edgeLim (d : Nat) (W : Mat K) (a b : Nat) : Prop := a < d ∧ b < d ∧ W a b ≠ 0

theorem edgeLim_iff (d : Nat) (W : Mat K) (a b : Nat) : edgeLim d W a b ↔ Edge d (fun i j => W j i) 0 a b := by
  unfold edgeLim Edge
  simp [abs_pos]

theorem acyclic_swap (E : Nat → Nat → Prop) : Acyclic E ↔ Acyclic (fun a b => E b a) := by
  constructor
  · intro h i hi
    exact h i (Relation.transGen_swap.1 hi)
  · intro h i hi
    exact h i (Relation.transGen_swap.1 (by simpa [Function.swap] using hi))

theorem acyclic_edgeLim (d : Nat) (W : Mat K) : Acyclic (edgeLim d W) ↔ Acyclic (Edge d W 0) := by
  rw [acyclic_swap (edgeLim d W)]
  have : (fun a b => edgeLim d W b a) = Edge d W 0 := by
    funext a b
    apply propext
    unfold edgeLim Edge
    simp only [abs_pos]
    tauto
  rw [this]

theorem aOf_pos (d : Nat) (W : Mat K) (a b : Nat) (hd : 0 < d) (h : W a b ≠ 0) : 0 < aOf d W a b :=
  div_pos (mul_self_pos.2 h) (Nat.cast_pos.2 hd)

theorem aOf_ne (d : Nat) (W : Mat K) (a b : Nat) (h : aOf d W a b ≠ 0) : W a b ≠ 0 := by
  intro h0; apply h; simp [aOf, h0]

theorem diag_ge_one (d : Nat) (W : Mat K) (n i : Nat) (hi : i < d) : 1 ≤ mpow d (mOf d W) n i i := by
  have := eye_le_mpow d W n i i hi
  simpa [eye] using this

theorem hVal_nonneg (d : Nat) (W : Mat K) (hd : 0 < d) : 0 ≤ hVal d W := by
  rw [hVal_eq d W hd]
  refine Finset.sum_nonneg (fun i hi => ?_)
  have := diag_ge_one d W d i (Finset.mem_range.1 hi)
  linarith

theorem walk_le_hVal (d : Nat) (W : Mat K) (hd : 0 < d) (k : Nat) (f : Nat → Nat) (h1 : 1 ≤ k) (hk : k ≤ d)
    (h0 : f 0 = f k) (hf : ∀ t, t < k → f t < d) :
    ∏ t ∈ Finset.range k, aOf d W (f t) (f (t + 1)) ≤ hVal d W := by
  rw [hVal_eq d W hd]
  have hi : f 0 < d := hf 0 (by omega)
  have e := eye_add_apow_le d W d k h1 hk (f 0) (f 0) hi
  have w := apow_walk d W f k hf
  rw [← h0] at w
  have s := Finset.single_le_sum (f := fun i => mpow d (mOf d W) d i i - 1) (s := Finset.range d)
    (fun i hi => by
      have := diag_ge_one d W d i (Finset.mem_range.1 hi)
      simpa using this) (Finset.mem_range.2 hi)
  simp only [eye, if_true] at e
  linarith

theorem mpow_ne (d : Nat) (W : Mat K) (n : Nat) : ∀ i j, i < d → j < d → i ≠ j → mpow d (mOf d W) n i j ≠ 0 →
    Relation.TransGen (edgeLim d W) i j := by
  induction n with
  | zero => intro i j _ _ hij h; exact absurd (by simp [mpow, eye, hij]) h
  | succ n ih =>
    intro i j hi hj hij h
    have h : mmul d (mpow d (mOf d W) n) (mOf d W) i j ≠ 0 := h
    rw [mmul_mOf d W _ i j hj] at h
    by_cases hp : mpow d (mOf d W) n i j = 0
    · rw [hp, zero_add] at h
      obtain ⟨l, hl, hne⟩ := Finset.exists_ne_zero_of_sum_ne_zero h
      have hl := Finset.mem_range.1 hl
      have h1 := left_ne_zero_of_mul hne
      have h2 := aOf_ne d W l j (right_ne_zero_of_mul hne)
      by_cases hil : i = l
      · subst hil; exact Relation.TransGen.single ⟨hl, hj, h2⟩
      · exact Relation.TransGen.tail (ih i l hi hl hil h1) ⟨hl, hj, h2⟩
    · exact ih i j hi hj hij hp

theorem diag_eq_one (d : Nat) (W : Mat K) (hac : Acyclic (edgeLim d W)) (n i : Nat) (hi : i < d) :
    mpow d (mOf d W) n i i = 1 := by
  induction n with
  | zero => simp [mpow, eye]
  | succ n ih =>
    show mmul d _ _ i i = 1
    rw [mmul_mOf d W _ i i hi, ih]
    have : mmul d (mpow d (mOf d W) n) (aOf d W) i i = 0 := by
      refine Finset.sum_eq_zero (fun l hl => ?_)
      have hl := Finset.mem_range.1 hl
      by_contra hne
      have h1 := left_ne_zero_of_mul hne
      have h2 := aOf_ne d W l i (right_ne_zero_of_mul hne)
      by_cases hil : i = l
      · subst hil; exact hac i (Relation.TransGen.single ⟨hl, hi, h2⟩)
      · exact hac i (Relation.TransGen.tail (mpow_ne d W n i l hi hl hil h1) ⟨hl, hi, h2⟩)
    rw [this, add_zero]

theorem hVal_zero_iff (d : Nat) (W : Mat K) (hd : 0 < d) : hVal d W = 0 ↔ Acyclic (edgeLim d W) := by
  constructor
  · intro h
    by_contra hc
    obtain ⟨k, f, h1, hk, h0, hw⟩ := short_cycle d (edgeLim d W) (fun a b h => h.1) hc
    have := walk_le_hVal d W hd k f h1 hk h0 (fun t ht => (hw t ht).1)
    rw [h] at this
    exact absurd this (not_le.2 (Finset.prod_pos (fun t ht =>
      aOf_pos d W _ _ hd (hw t (Finset.mem_range.1 ht)).2.2)))
  · intro h
    rw [hVal_eq d W hd]
    refine Finset.sum_eq_zero (fun i hi => ?_)
    rw [diag_eq_one d W h d i (Finset.mem_range.1 hi), sub_self]

/-- If all edges weigh at least `θ`, a cycle makes `h` at least `(θ² / d)^d`. -/
theorem hVal_lower (d : Nat) (W : Mat K) (hd : 0 < d) (θ : K) (hθ : 0 < θ) (hθd : θ * θ ≤ d)
    (hW : ∀ a b, a < d → b < d → W a b ≠ 0 → θ ≤ |W a b|) (hc : ¬ Acyclic (edgeLim d W)) :
    (θ * θ / d) ^ d ≤ hVal d W := by
  obtain ⟨k, f, h1, hk, h0, hw⟩ := short_cycle d (edgeLim d W) (fun a b h => h.1) hc
  have hdK : (0 : K) < d := Nat.cast_pos.2 hd
  have hx0 : 0 ≤ θ * θ / (d : K) := div_nonneg (mul_self_nonneg _) hdK.le
  have hx1 : θ * θ / (d : K) ≤ 1 := (div_le_one hdK).2 hθd
  refine le_trans ?_ (walk_le_hVal d W hd k f h1 hk h0 (fun t ht => (hw t ht).1))
  refine le_trans (pow_le_pow_of_le_one hx0 hx1 hk) ?_
  rw [show (θ * θ / (d : K)) ^ k = ∏ _t ∈ Finset.range k, (θ * θ / (d : K)) by
    rw [Finset.prod_const, Finset.card_range]]
  refine Finset.prod_le_prod (fun _ _ => hx0) (fun t ht => ?_)
  obtain ⟨ha, hb, hne⟩ := hw t (Finset.mem_range.1 ht)
  have := hW _ _ ha hb hne
  unfold aOf
  refine div_le_div_of_nonneg_right ?_ hdK.le
  rw [← abs_mul_abs_self (W (f t) (f (t + 1)))]
  exact mul_le_mul this this hθ.le (abs_nonneg _)

theorem aOf_mono (d : Nat) (W V : Mat K) (a b : Nat) (h : |W a b| ≤ |V a b|) : aOf d W a b ≤ aOf d V a b := by
  unfold aOf
  refine div_le_div_of_nonneg_right ?_ (Nat.cast_nonneg d)
  rw [← abs_mul_abs_self (W a b), ← abs_mul_abs_self (V a b)]
  exact mul_le_mul h h (abs_nonneg _) (abs_nonneg _)

theorem mpow_mono (d : Nat) (W V : Mat K) (h : ∀ a b, a < d → b < d → |W a b| ≤ |V a b|) (n : Nat) :
    ∀ i j, i < d → j < d → mpow d (mOf d W) n i j ≤ mpow d (mOf d V) n i j := by
  induction n with
  | zero => intro i j _ _; exact le_refl _
  | succ n ih =>
    intro i j hi hj
    refine mmul_mono d _ _ _ _ i j (fun k hk => ⟨mpow_nonneg d _ (mOf_nonneg d W) n i k, ih i k hi hk⟩)
      (fun k hk => ⟨mOf_nonneg d W k j, ?_⟩)
    rw [mOf_eq, mOf_eq]
    have := aOf_mono d W V k j (h k j hk hj)
    linarith

theorem hVal_mono (d : Nat) (W V : Mat K) (hd : 0 < d) (h : ∀ a b, a < d → b < d → |W a b| ≤ |V a b|) :
    hVal d W ≤ hVal d V := by
  rw [hVal_eq d W hd, hVal_eq d V hd]
  refine Finset.sum_le_sum (fun i hi => ?_)
  have hi := Finset.mem_range.1 hi
  have := mpow_mono d W V h d i i hi hi
  linarith

theorem threshold_abs (thr : K) (W : Mat K) (a b : Nat) : |threshold thr W a b| ≤ |W a b| := by
  unfold threshold; split
  · simp
  · exact le_refl _

theorem threshold_ne (thr : K) (W : Mat K) (a b : Nat) (h : threshold thr W a b ≠ 0) :
    thr ≤ |threshold thr W a b| := by
  unfold threshold at h ⊢
  split at h
  · exact absurd rfl h
  · rename_i h'
    simp only [h', if_false]
    exact not_lt.1 h'

/-! ### The loops -/

/-- The optimiser respects the bounds: the diagonal is zero (lim.py:286-291). -/
def Bounded (d : Nat) (opt : K → K → Dbl K → Dbl K) : Prop :=
  ∀ r a w i, i < d → (opt r a w).1 i i = 0 ∧ (opt r a w).2 i i = 0

theorem inner_some (d : Nat) (rhoMax : K) (opt : K → Dbl K) (h : Option K) (fuel : Nat) :
    ∀ rho cur r w hn, (∀ w' h', cur = some (w', h') → (∃ x, w' = opt x) ∧ h' = hVal d (adj w')) →
      inner d rhoMax opt h fuel rho cur = some (r, some (w, hn)) → (∃ x, w = opt x) ∧ hn = hVal d (adj w) := by
  induction fuel with
  | zero => intro rho cur r w hn _ h; simp [inner] at h
  | succ f ih =>
    intro rho cur r w hn hcur hin
    unfold inner at hin
    split at hin
    · simp only at hin
      split at hin
      · refine ih _ _ r w hn ?_ hin
        intro w' h' he
        simp only [Option.some.injEq, Prod.mk.injEq] at he
        obtain ⟨rfl, rfl⟩ := he
        exact ⟨⟨_, rfl⟩, rfl⟩
      · simp only [Option.some.injEq, Prod.mk.injEq] at hin
        obtain ⟨_, rfl, rfl⟩ := hin
        exact ⟨⟨_, rfl⟩, rfl⟩
    · simp only [Option.some.injEq, Prod.mk.injEq] at hin
      exact hcur w hn hin.2

/-- The inner loop ends. -/
theorem inner_terminates [Archimedean K] (d : Nat) (rhoMax : K) (rho : K)
    (hr : 0 < rho) : ∃ N, ∀ fuel, N ≤ fuel → ∀ (opt : K → Dbl K) (h : Option K) r cur, rho ≤ r →
      (inner d rhoMax opt h fuel r cur).isSome := by
  obtain ⟨n, hn⟩ := pow_unbounded_of_one_lt (rhoMax / rho) (show (1 : K) < 10 by norm_num)
  have hn : rhoMax < rho * 10 ^ n := by
    have := (div_lt_iff₀ hr).1 hn
    linarith
  have key : ∀ (opt : K → Dbl K) (h : Option K) m fuel, m + 1 ≤ fuel → ∀ r cur, rhoMax < r * 10 ^ m →
      (inner d rhoMax opt h fuel r cur).isSome := by
    intro opt h m
    induction m with
    | zero =>
      intro fuel hf r cur hr
      obtain ⟨g, rfl⟩ : ∃ g, fuel = g + 1 := ⟨fuel - 1, by omega⟩
      unfold inner
      rw [if_neg (by rw [pow_zero, mul_one] at hr; exact not_lt.2 hr.le)]
      rfl
    | succ m ih =>
      intro fuel hf r cur hr
      obtain ⟨g, rfl⟩ : ∃ g, fuel = g + 1 := ⟨fuel - 1, by omega⟩
      unfold inner
      split
      · simp only
        split
        · exact ih g (by omega) _ _ (by rw [pow_succ] at hr; linarith)
        · rfl
      · rfl
  refine ⟨n + 1, fun fuel hf opt h r cur hr' => key opt h n fuel hf r cur (lt_of_lt_of_le hn ?_)⟩
  exact mul_le_mul_of_nonneg_right hr' (by positivity)

theorem inner_rho (d : Nat) (rhoMax : K) (opt : K → Dbl K) (h : Option K) (fuel : Nat) :
    ∀ rho cur r x, 0 ≤ rho → inner d rhoMax opt h fuel rho cur = some (r, x) → rho ≤ r := by
  induction fuel with
  | zero => intro rho cur r x _ h; simp [inner] at h
  | succ f ih =>
    intro rho cur r x h0 hin
    unfold inner at hin
    split at hin
    · simp only at hin
      split at hin
      · have := ih _ _ r x (by positivity) hin
        linarith
      · simp only [Option.some.injEq, Prod.mk.injEq] at hin
        exact hin.1.le
    · simp only [Option.some.injEq, Prod.mk.injEq] at hin
      exact hin.1.le

theorem afterInner_rho (d : Nat) (c : Cfg K) (rnd : Nat → Dbl K) (s t : St K) (rho : K) (w : Dbl K) (h : K)
    (hr : 1 ≤ rho) (ht : afterInner d c rnd s rho w h = Step.more t) : 1 ≤ t.rho := by
  unfold afterInner at ht
  simp only at ht
  split at ht
  · cases ht
  · split at ht
    · split at ht
      · cases ht; exact le_refl _
      · cases ht; exact le_refl _
    · split at ht
      · cases ht
      · split at ht
        · cases ht; exact hr
        · cases ht; exact hr

/-- With enough fuel for one inner loop the whole optimisation ends. -/
theorem outer_terminates [Archimedean K] (d : Nat) (c : Cfg K) : ∃ N, ∀ fuel, N ≤ fuel →
    ∀ (opt : K → K → Dbl K → Dbl K) (rnd : Nat → Dbl K) n s, 1 ≤ s.rho →
      (outer d c fuel opt rnd n s).isSome := by
  obtain ⟨N, hN⟩ := inner_terminates (K := K) d c.rhoMax 1 one_pos
  refine ⟨N, fun fuel hf opt rnd n => ?_⟩
  induction n with
  | zero => intro s _; rfl
  | succ n ih =>
    intro s hs
    unfold outer
    split
    · rename_i he
      have := hN fuel hf (fun rho => opt rho s.alpha s.w) s.h s.rho none hs
      rw [he] at this
      exact this
    · rfl
    · rename_i rho w h he
      have h1 := inner_rho d _ _ _ _ _ _ _ _ (le_trans zero_le_one hs) he
      split
      · rfl
      · rename_i t ht
        exact ih t (afterInner_rho d c rnd s t rho w h (le_trans hs h1) ht)

/-- The first pass already meets the tolerance. -/
theorem globalPhase_first (d : Nat) (c : Cfg K) (fuel : Nat) (opt : K → K → Dbl K → Dbl K) (rnd : Nat → Dbl K)
    (hm : 0 < c.maxIter) (hf : 0 < fuel) (hr : 1 < c.rhoMax)
    (hh : hVal d (adj (opt 1 0 (rnd 0))) ≤ c.hTol ∧ hVal d (adj (opt 1 0 (rnd 0))) ≠ 0) :
    globalPhase d c fuel opt rnd = some (Except.ok (threshold c.wThr (adj (opt 1 0 (rnd 0))))) := by
  unfold globalPhase
  obtain ⟨m, hm⟩ : ∃ m, c.maxIter = m + 1 := ⟨c.maxIter - 1, by omega⟩
  obtain ⟨g, rfl⟩ : ∃ g, fuel = g + 1 := ⟨fuel - 1, by omega⟩
  rw [hm]
  unfold outer inner initSt
  simp only [hr, if_true, geQuarter, Bool.false_eq_true, if_false]
  unfold afterInner
  simp only [hh, and_self, ne_eq, not_false_eq_true, if_true, Option.map_some]
  rfl

theorem fold_inv {α β : Type} (P : β → Prop) (f : β → α → β) (l : List α) (b : β) (hb : P b)
    (hf : ∀ b a, a ∈ l → P b → P (f b a)) : P (l.foldl f b) := by
  induction l generalizing b with
  | nil => exact hb
  | cons x l ih =>
    exact ih (f b x) (hf b x (by simp) hb) (fun b a ha => hf b a (by simp [ha]))

theorem outer_ok (d : Nat) (c : Cfg K) (fuel : Nat) (opt : K → K → Dbl K → Dbl K) (rnd : Nat → Dbl K) (n : Nat) :
    ∀ s t, outer d c fuel opt rnd n s = some (Except.ok t) →
      (t = s ∧ n = 0) ∨
      (∃ r a w, t.w = opt r a w ∧ t.h = some (hVal d (adj t.w)) ∧
        ((hVal d (adj t.w) ≤ c.hTol ∧ hVal d (adj t.w) ≠ 0) ∨ c.rhoMax ≤ t.rho ∨
          (9 / 100 ≤ absSum d (adj t.w)))) ∨
      (∃ k, t.w = rnd k) := by
  induction n with
  | zero => intro s t h; simp only [outer, Option.some.injEq, Except.ok.injEq] at h; exact Or.inl ⟨h.symm, rfl⟩
  | succ n ih =>
    intro s t h
    right
    unfold outer at h
    split at h
    · cases h
    · cases h
    · rename_i rho w hh hin
      obtain ⟨⟨x, hx⟩, hv⟩ := inner_some d _ _ _ _ _ _ _ _ _ (by intro w' h' he; cases he) hin
      unfold afterInner at h
      simp only at h
      by_cases c1 : hh ≤ c.hTol ∧ hh ≠ 0
      · simp only [c1, and_self, if_true, ne_eq, not_false_eq_true, Option.some.injEq, Except.ok.injEq] at h
        subst h
        subst hv
        exact Or.inl ⟨_, _, _, hx, rfl, Or.inl c1⟩
      · rw [if_neg c1] at h
        by_cases c2 : c.rhoMax * (1 / 1000000) ≤ rho ∧ 100000 < hh
        · rw [if_pos c2] at h
          by_cases c5 : absSum d (adj (rnd s.draws)) < 9 / 100
          · rw [if_pos c5] at h
            rcases ih _ _ h with h' | h' | h'
            · obtain ⟨rfl, _⟩ := h'; exact Or.inr ⟨_, rfl⟩
            · exact Or.inl h'
            · exact Or.inr h'
          · rw [if_neg c5] at h
            rcases ih _ _ h with h' | h' | h'
            · obtain ⟨rfl, _⟩ := h'; exact Or.inr ⟨_, rfl⟩
            · exact Or.inl h'
            · exact Or.inr h'
        · rw [if_neg c2] at h
          by_cases c3 : c.rhoMax ≤ rho
          · rw [if_pos c3] at h
            simp only [Option.some.injEq, Except.ok.injEq] at h
            subst h
            subst hv
            exact Or.inl ⟨_, _, _, hx, rfl, Or.inr (Or.inl c3)⟩
          · rw [if_neg c3] at h
            by_cases c4 : absSum d (adj w) < 9 / 100
            · rw [if_pos c4] at h
              rcases ih _ _ h with h' | h' | h'
              · obtain ⟨rfl, _⟩ := h'; exact Or.inr ⟨_, rfl⟩
              · exact Or.inl h'
              · exact Or.inr h'
            · rw [if_neg c4] at h
              rcases ih _ _ h with h' | h' | h'
              · obtain ⟨rfl, _⟩ := h'
                subst hv
                exact Or.inl ⟨_, _, _, hx, rfl, Or.inr (Or.inr (not_lt.1 c4))⟩
              · exact Or.inl h'
              · exact Or.inr h'

/-! ### The local search -/

/-- Invariant of the local search: the start matrix with its loss, or a matrix that passed both tests. -/
def Acc (d : Nat) (hTol : K) (L : Mat K → K) (W : Mat K) (s : K × Mat K) : Prop :=
  (s.1 = L W ∧ s.2 = W) ∨ (s.1 = L s.2 ∧ L s.2 < L W ∧ hVal d s.2 < hTol)

theorem acc_try (d : Nat) (hTol : K) (L : Mat K → K) (W : Mat K) (s : K × Mat K) (Wt : Mat K)
    (h : Acc d hTol L W s) : Acc d hTol L W (tryCand d hTol L s Wt) := by
  unfold tryCand
  split
  · rename_i hc
    refine Or.inr ⟨rfl, ?_, hc.2⟩
    rcases h with ⟨h1, _⟩ | ⟨h1, h2, _⟩
    · rw [← h1]; exact hc.1
    · exact lt_trans (by rw [← h1]; exact hc.1) h2
  · exact h

theorem acc_fold (d : Nat) (hTol : K) (L : Mat K → K) (W : Mat K) (l : List (Mat K)) (s : K × Mat K)
    (h : Acc d hTol L W s) : Acc d hTol L W (l.foldl (tryCand d hTol L) s) :=
  fold_inv (Acc d hTol L W) _ l s h (fun b a _ hb => acc_try d hTol L W b a hb)

theorem acc_localSearch (d : Nat) (hTol : K) (L : Mat K → K) (W : Mat K) :
    Acc d hTol L W (addEdges d hTol L W (prune d hTol L W (directions d hTol L W))) := by
  have h1 : Acc d hTol L W (directions d hTol L W) := acc_fold d hTol L W _ _ (Or.inl ⟨rfl, rfl⟩)
  generalize directions d hTol L W = s1 at h1
  have h2 : Acc d hTol L W (prune d hTol L W s1) := by
    unfold prune
    split
    · simp only
      split
      · exact acc_fold d hTol L W _ _ h1
      · exact acc_fold d hTol L W _ _ (acc_fold d hTol L W _ _ h1)
    · exact h1
  generalize prune d hTol L W s1 = s2 at h2
  unfold addEdges
  split
  · simp only
    split
    · exact acc_fold d hTol L W _ _ h2
    · exact acc_fold d hTol L W _ _ (acc_fold d hTol L W _ _ h2)
  · exact h2

theorem fold_matrix (d : Nat) (hTol : K) (L : Mat K → K) (P : Mat K → Prop) (l : List (Mat K)) (s : K × Mat K)
    (hs : P s.2) (hl : ∀ V ∈ l, P V) : P (l.foldl (tryCand d hTol L) s).2 :=
  fold_inv (fun s => P s.2) _ l s hs (fun b a ha hb => by
    unfold tryCand; split
    · exact hl a ha
    · exact hb)

/-- A three-stage invariant of the local search: `P1` for the direction step, `P2` after pruning, `P3` at the end. -/
theorem localSearch_stages (d : Nat) (hTol : K) (L : Mat K → K) (W : Mat K) (P1 P2 P3 : Mat K → Prop)
    (h0 : P1 W) (h12 : ∀ V, P1 V → P2 V) (h23 : ∀ V, P2 V → P3 V)
    (hdir : ∀ s, P1 (reverseEdges W (whereNe d W) s))
    (hdel : ∀ V, P1 V → ∀ U ∈ deleteCands V (whereNe d V), P2 U)
    (hadd : ∀ V, P2 V → ∀ U ∈ addCands d V, P3 U) : P3 (localSearch d hTol L W) := by
  unfold localSearch
  have g1 : P1 (directions d hTol L W).2 := by
    refine fold_matrix d hTol L P1 _ _ h0 ?_
    intro V hV
    obtain ⟨s, _, rfl⟩ := List.mem_map.1 hV
    exact hdir s
  generalize directions d hTol L W = s1 at g1
  have g2 : P2 (prune d hTol L W s1).2 := by
    unfold prune
    split
    · simp only
      have := fold_matrix d hTol L P2 (deleteCands s1.2 (whereNe d s1.2)) s1 (h12 _ g1) (hdel _ g1)
      split
      · exact this
      · exact fold_matrix d hTol L P2 _ _ this (hdel W h0)
    · exact h12 _ g1
  generalize prune d hTol L W s1 = s2 at g2
  unfold addEdges
  split
  · simp only
    have := fold_matrix d hTol L P3 (addCands d s2.2) s2 (h23 _ g2) (hadd _ g2)
    split
    · exact this
    · exact fold_matrix d hTol L P3 _ _ this (hadd W (h12 _ h0))
  · exact h23 _ g2

/-- Every nonzero weight is at least `θ`. -/
def BigEdges (θ : K) (W : Mat K) : Prop := ∀ a b, W a b ≠ 0 → θ ≤ |W a b|

theorem big_setAt (θ : K) (W : Mat K) (i j : Nat) (v : K) (hv : v ≠ 0 → θ ≤ |v|) (h : BigEdges θ W) :
    BigEdges θ (setAt W i j v) := by
  intro a b hab
  unfold setAt at hab ⊢
  split
  · rename_i hc; rw [if_pos hc] at hab; exact hv hab
  · rename_i hc; rw [if_neg hc] at hab; exact h a b hab

theorem big_reverse (θ : K) (hθ : θ ≤ 1) (I : List (Nat × Nat)) : ∀ (W : Mat K) (s : List Bool), BigEdges θ W →
    BigEdges θ (reverseEdges W I s) := by
  induction I with
  | nil => intro W s h; simpa [reverseEdges] using h
  | cons p I ih =>
    obtain ⟨a, b⟩ := p
    intro W s h
    cases s with
    | nil => simpa [reverseEdges] using h
    | cons r s =>
      unfold reverseEdges
      refine ih _ s ?_
      split
      · exact big_setAt θ _ _ _ _ (by simpa using hθ) (big_setAt θ _ _ _ _ (by simp) h)
      · exact h

theorem big_localSearch (d : Nat) (hTol : K) (L : Mat K → K) (W : Mat K) (θ : K) (hθ : θ ≤ 1)
    (h : BigEdges θ W) : BigEdges θ (localSearch d hTol L W) := by
  refine localSearch_stages d hTol L W (BigEdges θ) (BigEdges θ) (BigEdges θ) h (fun _ h => h) (fun _ h => h)
    (fun s => big_reverse θ hθ _ W s h) ?_ ?_
  · intro V hV U hU
    obtain ⟨p, _, rfl⟩ := List.mem_map.1 hU
    exact big_setAt θ _ _ _ _ (by simp) hV
  · intro V hV U hU
    obtain ⟨p, _, rfl⟩ := List.mem_map.1 hU
    exact big_setAt θ _ _ _ _ (by simpa using hθ) hV

/-- `a` and `b` are adjacent in the graph of `W`. -/
def Adjacent (W : Mat K) (a b : Nat) : Prop := W a b ≠ 0 ∨ W b a ≠ 0

theorem adjacent_flip (W : Mat K) (x y a b : Nat) (h : Adjacent W x y) :
    Adjacent (setAt (setAt W x y 0) y x 1) a b ↔ Adjacent W a b := by
  unfold Adjacent setAt at *
  by_cases h1 : a = y ∧ b = x
  · obtain ⟨rfl, rfl⟩ := h1
    simp only [and_self, if_true, ne_eq, one_ne_zero, not_false_eq_true, true_or, true_iff]
    tauto
  · by_cases h2 : b = y ∧ a = x
    · obtain ⟨rfl, rfl⟩ := h2
      simp only [and_self, if_true, ne_eq, one_ne_zero, not_false_eq_true, or_true, true_iff]
      tauto
    · rw [if_neg h1, if_neg h2, if_neg (by tauto), if_neg (by tauto)]

theorem adjacent_reverse (I : List (Nat × Nat)) : ∀ (W : Mat K) (s : List Bool),
    (∀ p ∈ I, Adjacent W p.1 p.2) → ∀ a b, Adjacent (reverseEdges W I s) a b ↔ Adjacent W a b := by
  induction I with
  | nil => intro W s _ a b; simp [reverseEdges]
  | cons p I ih =>
    obtain ⟨x, y⟩ := p
    intro W s h a b
    cases s with
    | nil => simp [reverseEdges]
    | cons r s =>
      unfold reverseEdges
      have hxy := h (x, y) (by simp)
      cases r with
      | false => exact ih W s (fun p hp => h p (by simp [hp])) a b
      | true =>
        simp only [if_true]
        rw [ih _ s (fun p hp => (adjacent_flip W x y _ _ hxy).2 (h p (by simp [hp]))) a b]
        exact adjacent_flip W x y a b hxy

theorem mem_whereNe (d : Nat) (W : Mat K) (p : Nat × Nat) : p ∈ whereNe d W ↔ p.1 < d ∧ p.2 < d ∧ W p.1 p.2 ≠ 0 := by
  obtain ⟨i, j⟩ := p
  unfold whereNe
  simp only [List.mem_filter, List.mem_flatMap, List.mem_range, List.mem_map, Prod.mk.injEq, decide_eq_true_eq]
  constructor
  · rintro ⟨⟨a, ha, b, hb, rfl, rfl⟩, h⟩; exact ⟨ha, hb, h⟩
  · rintro ⟨ha, hb, h⟩; exact ⟨⟨i, ha, j, hb, rfl, rfl⟩, h⟩

/-- `V` keeps all adjacencies of `W` except possibly one pair. -/
def LosesAtMostOne (W V : Mat K) : Prop :=
  ∃ x y, ∀ a b, Adjacent W a b → Adjacent V a b ∨ (a = x ∧ b = y) ∨ (a = y ∧ b = x)

theorem adjacent_setAt_zero (W : Mat K) (x y a b : Nat) :
    (Adjacent (setAt W x y 0) a b → Adjacent W a b) ∧
      (Adjacent W a b → Adjacent (setAt W x y 0) a b ∨ (a = x ∧ b = y) ∨ (a = y ∧ b = x)) := by
  unfold Adjacent setAt
  constructor
  · rintro (h | h)
    · left; intro h0; apply h; split <;> simp [h0]
    · right; intro h0; apply h; split <;> simp [h0]
  · intro h
    by_cases h1 : a = x ∧ b = y
    · exact Or.inr (Or.inl h1)
    · by_cases h2 : a = y ∧ b = x
      · exact Or.inr (Or.inr h2)
      · rw [if_neg h1, if_neg (by tauto)]; exact Or.inl h

theorem adjacent_setAt_one (W : Mat K) (x y a b : Nat) :
    (Adjacent W a b → Adjacent (setAt W x y 1) a b) ∧
      (Adjacent (setAt W x y 1) a b → Adjacent W a b ∨ (a = x ∧ b = y) ∨ (a = y ∧ b = x)) := by
  unfold Adjacent setAt
  constructor
  · rintro (h | h)
    · left; split <;> simp [h]
    · right; split <;> simp [h]
  · intro h
    by_cases h1 : a = x ∧ b = y
    · exact Or.inr (Or.inl h1)
    · by_cases h2 : a = y ∧ b = x
      · exact Or.inr (Or.inr h2)
      · rw [if_neg h1, if_neg (by tauto)] at h; exact Or.inl h

theorem skeleton_localSearch (d : Nat) (hTol : K) (L : Mat K → K) (W : Mat K) :
    LosesAtMostOne W (localSearch d hTol L W) ∧ LosesAtMostOne (localSearch d hTol L W) W := by
  refine localSearch_stages d hTol L W (fun V => ∀ a b, Adjacent V a b ↔ Adjacent W a b)
    (fun V => LosesAtMostOne W V ∧ ∀ a b, Adjacent V a b → Adjacent W a b)
    (fun V => LosesAtMostOne W V ∧ LosesAtMostOne V W) (fun _ _ => Iff.rfl) ?_ ?_ ?_ ?_ ?_
  · intro V h; exact ⟨⟨0, 0, fun a b hab => Or.inl ((h a b).2 hab)⟩, fun a b => (h a b).1⟩
  · intro V h; exact ⟨h.1, ⟨0, 0, fun a b hab => Or.inl (h.2 a b hab)⟩⟩
  · intro s a b
    exact adjacent_reverse _ W s (fun p hp => Or.inl ((mem_whereNe d W p).1 hp).2.2) a b
  · intro V hV U hU
    obtain ⟨p, _, rfl⟩ := List.mem_map.1 hU
    refine ⟨⟨p.1, p.2, fun a b hab => (adjacent_setAt_zero V p.1 p.2 a b).2 ((hV a b).2 hab)⟩, fun a b hab => ?_⟩
    exact (hV a b).1 ((adjacent_setAt_zero V p.1 p.2 a b).1 hab)
  · intro V hV U hU
    obtain ⟨p, _, rfl⟩ := List.mem_map.1 hU
    obtain ⟨⟨x, y, hxy⟩, hsub⟩ := hV
    refine ⟨⟨x, y, fun a b hab => ?_⟩, ⟨p.1, p.2, fun a b hab => ?_⟩⟩
    · rcases hxy a b hab with h | h
      · exact Or.inl ((adjacent_setAt_one V p.1 p.2 a b).1 h)
      · exact Or.inr h
    · rcases (adjacent_setAt_one V p.1 p.2 a b).2 hab with h | h
      · exact Or.inl (hsub a b h)
      · exact Or.inr h

end Verif.Lim
