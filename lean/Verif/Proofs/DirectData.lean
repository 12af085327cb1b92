import Verif.Model.DirectData
import Verif.Proofs.DirectLingam
import Mathlib.Algebra.BigOperators.Ring.Finset
import Mathlib.Algebra.Order.BigOperators.Group.Finset
import Mathlib.Algebra.Order.BigOperators.Ring.Finset
import Mathlib.Algebra.BigOperators.Field
import Mathlib.Tactic.Ring
import Mathlib.Tactic.FieldSimp
import Mathlib.Tactic.Linarith

/-! Lemmas on sample covariances, the removal of exogenous effects and least squares. -/
set_option linter.unusedSectionVars false
set_option autoImplicit false
namespace Verif
open Finset
variable {N : Nat}

theorem uncorrelated_iff {x y : Fin N → ℚ} : Uncorrelated x y ↔ sampleCov x y = 0 := by
  unfold Uncorrelated sampleCov; rw [sub_eq_zero]

theorem sampleCov_comm (x y : Fin N → ℚ) : sampleCov x y = sampleCov y x := by
  unfold sampleCov; simp only [mul_comm]

theorem sampleCov_add_left (x y z : Fin N → ℚ) :
    sampleCov (fun r => x r + y r) z = sampleCov x z + sampleCov y z := by
  unfold sampleCov; simp only [add_mul, sum_add_distrib]; ring

theorem sampleCov_mul_left (c : ℚ) (x z : Fin N → ℚ) :
    sampleCov (fun r => c * x r) z = c * sampleCov x z := by
  unfold sampleCov; simp only [mul_assoc, ← mul_sum]; ring

theorem sampleCov_sub_left (x y z : Fin N → ℚ) :
    sampleCov (fun r => x r - y r) z = sampleCov x z - sampleCov y z := by
  unfold sampleCov; simp only [sub_mul, sum_sub_distrib]; ring

theorem sampleCov_zero_left (z : Fin N → ℚ) : sampleCov (fun _ => 0) z = 0 := by
  unfold sampleCov; simp

theorem sampleCov_sum_left {ι : Type} (s : Finset ι) (f : ι → Fin N → ℚ) (z : Fin N → ℚ) :
    sampleCov (fun r => ∑ i ∈ s, f i r) z = ∑ i ∈ s, sampleCov (f i) z := by
  classical
  induction s using Finset.induction_on with
  | empty => simp only [sum_empty]; exact sampleCov_zero_left z
  | insert a s ha ih => simp only [sum_insert ha]; rw [sampleCov_add_left, ih]

theorem sampleCov_list_left (l : List Nat) (c : Nat → ℚ) (f : Nat → Fin N → ℚ) (z : Fin N → ℚ) :
    sampleCov (fun r => (l.map (fun p => c p * f p r)).sum) z = (l.map (fun p => c p * sampleCov (f p) z)).sum := by
  induction l with
  | nil => simp only [List.map_nil, List.sum_nil]; exact sampleCov_zero_left z
  | cons a l ih => simp only [List.map_cons, List.sum_cons]; rw [sampleCov_add_left, ih, sampleCov_mul_left]

theorem sampleCov_list_right (l : List Nat) (c : Nat → ℚ) (f : Nat → Fin N → ℚ) (z : Fin N → ℚ) :
    sampleCov z (fun r => (l.map (fun p => c p * f p r)).sum) = (l.map (fun p => c p * sampleCov z (f p))).sum := by
  rw [sampleCov_comm, sampleCov_list_left]
  simp only [sampleCov_comm z]

theorem sampleCov_self (x : Fin N → ℚ) : 2 * sampleCov x x = ∑ r, ∑ s, (x r - x s) ^ 2 := by
  have : ∀ r s, (x r - x s) ^ 2 = x r * x r - 2 * (x r * x s) + x s * x s := by intros; ring
  simp only [this, sum_add_distrib, sum_sub_distrib, sum_const, card_univ, Fintype.card_fin, nsmul_eq_mul, ← mul_sum,
    ← sum_mul]
  unfold sampleCov
  ring

theorem sampleCov_self_nonneg (x : Fin N → ℚ) : 0 ≤ sampleCov x x := by
  have h : 0 ≤ ∑ r, ∑ s, (x r - x s) ^ 2 := sum_nonneg fun r _ => sum_nonneg fun s _ => sq_nonneg _
  rw [← sampleCov_self] at h
  linarith

theorem const_of_sampleCov_self {x : Fin N → ℚ} (h : sampleCov x x = 0) : ∀ r s, x r = x s := by
  have h1 : ∑ r, ∑ s, (x r - x s) ^ 2 = 0 := by rw [← sampleCov_self, h, mul_zero]
  intro r s
  have h2 := (sum_eq_zero_iff_of_nonneg (fun r _ => sum_nonneg fun s _ => sq_nonneg _)).1 h1 r (mem_univ r)
  have h3 := (sum_eq_zero_iff_of_nonneg (fun s _ => sq_nonneg _)).1 h2 s (mem_univ s)
  exact sub_eq_zero.1 (pow_eq_zero_iff (two_ne_zero) |>.1 h3)

theorem nonConstant_iff {x : Fin N → ℚ} : NonConstant x ↔ sampleCov x x ≠ 0 := by
  constructor
  · rintro ⟨r, s, h⟩ h0; exact h (const_of_sampleCov_self h0 r s)
  · intro h
    by_contra hc
    unfold NonConstant at hc
    push Not at hc
    apply h
    have := sampleCov_self x
    have h0 : ∀ r s, (x r - x s) ^ 2 = 0 := fun r s => by rw [hc r s]; simp
    simp only [h0, sum_const_zero] at this
    linarith

theorem sampleCov_const_left {x : Fin N → ℚ} (h : sampleCov x x = 0) (z : Fin N → ℚ) : sampleCov x z = 0 := by
  have hc := const_of_sampleCov_self h
  unfold sampleCov
  rcases Nat.eq_zero_or_pos N with rfl | hN
  · simp
  · have h0 : ∀ r, x r = x ⟨0, hN⟩ := fun r => hc r _
    simp only [h0, ← mul_sum, sum_const, card_univ, Fintype.card_fin, nsmul_eq_mul]
    ring

/-! ### The functions of the model -/
namespace Direct

theorem cov_eq (x y : Fin N → ℚ) : cov x y = sampleCov x y / (N : ℚ) ^ 2 := by
  rcases Nat.eq_zero_or_pos N with rfl | hN
  · simp [cov, sampleCov]
  · have hN' : (N : ℚ) ≠ 0 := by positivity
    have h1 : ∀ r, (x r - mean x) * (y r - mean y) = x r * y r - mean y * x r - mean x * y r + mean x * mean y := by
      intro r; ring
    unfold cov sampleCov
    simp only [h1, sum_add_distrib, sum_sub_distrib, ← mul_sum, sum_const, card_univ, Fintype.card_fin, nsmul_eq_mul]
    unfold mean
    field_simp
    ring

theorem var_eq (x : Fin N → ℚ) : var x = sampleCov x x / (N : ℚ) ^ 2 := by
  rw [← cov_eq]; unfold var cov; simp only [sq]

theorem residual_eq (x y : Fin N → ℚ) (r : Fin N) :
    residual x y r = x r - sampleCov x y / sampleCov y y * y r := by
  unfold residual
  rw [cov_eq, var_eq]
  rcases Nat.eq_zero_or_pos N with rfl | hN
  · exact r.elim0
  · have hN' : (N : ℚ) ^ 2 ≠ 0 := by positivity
    rw [div_div_div_cancel_right₀ hN']

/-- One removal keeps the model on the other variables. -/
theorem removeEffect_follows {U : List Nat} {B : Nat → Nat → ℚ} {X e : Nat → Fin N → ℚ} {m : Nat} (hm : m ∈ U)
    (hX : FollowsModel U.toFinset B X e) (hexo : ∀ j ∈ U, B m j = 0)
    (hunc : ∀ i ∈ U, i ≠ m → sampleCov (e i) (e m) = 0) (hvar : sampleCov (e m) (e m) ≠ 0) :
    FollowsModel (U.filter (fun i => decide (i ≠ m))).toFinset B (removeEffect id X U m) e := by
  have hfin : (U.filter (fun i => decide (i ≠ m))).toFinset = U.toFinset.erase m := by
    ext x; simp [and_comm]
  have hXm : X m = e m := by
    funext r
    rw [hX m (by simpa using hm) r, sum_eq_zero, zero_add]
    intro j hj
    rw [hexo j (by simpa using hj), zero_mul]
  set c : Nat → ℚ := fun i => sampleCov (X i) (X m) / sampleCov (X m) (X m) with hc
  have hY : ∀ i ∈ U, i ≠ m → ∀ r, removeEffect id X U m i r = X i r - c i * X m r := by
    intro i hi him r
    unfold removeEffect
    rw [if_pos ⟨hi, him⟩]
    exact residual_eq _ _ _
  have hcm : c m = 1 := by
    rw [hc]; simp only; rw [hXm, div_self hvar]
  have hci : ∀ i ∈ U, i ≠ m → c i = ∑ j ∈ U.toFinset, B i j * c j := by
    intro i hi him
    have h1 : sampleCov (X i) (X m) = ∑ j ∈ U.toFinset, B i j * sampleCov (X j) (X m) := by
      have : X i = fun r => (∑ j ∈ U.toFinset, B i j * X j r) + e i r := by
        funext r; exact hX i (by simpa using hi) r
      conv_lhs => rw [this]
      rw [sampleCov_add_left, sampleCov_sum_left]
      rw [hXm, hunc i hi him, add_zero]
      exact sum_congr rfl fun j _ => sampleCov_mul_left _ _ _
    rw [hc]; simp only
    rw [h1, sum_div]
    exact sum_congr rfl fun j _ => mul_div_assoc _ _ _
  rw [hfin]
  intro i hi r
  obtain ⟨him, hiU⟩ := mem_erase.1 hi
  have hiU' : i ∈ U := by simpa using hiU
  rw [hY i hiU' him r, hX i hiU r, hci i hiU' him]
  have hsum : ∑ j ∈ U.toFinset.erase m, B i j * removeEffect id X U m j r =
      ∑ j ∈ U.toFinset.erase m, (B i j * X j r - B i j * c j * X m r) := by
    refine sum_congr rfl fun j hj => ?_
    obtain ⟨hjm, hjU⟩ := mem_erase.1 hj
    rw [hY j (by simpa using hjU) hjm r]; ring
  have hmU : m ∈ U.toFinset := by simpa using hm
  rw [hsum, sum_sub_distrib, ← sum_mul, ← add_sum_erase _ _ hmU, ← add_sum_erase _ (fun j => B i j * c j) hmU, hcm]
  ring

/-! ### The working data -/

theorem working_append (store : ℚ → ℚ) (n : Nat) (X : Nat → Fin N → ℚ) (A : List Nat) (m : Nat) :
    working store n X (A ++ [m]) = (removeEffect store (working store n X A).1 (working store n X A).2 m,
      (working store n X A).2.filter (fun i => decide (i ≠ m))) := by
  unfold working; rw [List.foldl_append]; rfl

theorem working_mem (store : ℚ → ℚ) (n : Nat) (X : Nat → Fin N → ℚ) (A : List Nat) (x : Nat) :
    x ∈ (working store n X A).2 ↔ x < n ∧ x ∉ A := by
  induction A using List.reverseRecOn with
  | nil => simp [working]
  | append_singleton A m ih =>
    rw [working_append]
    simp only [List.mem_filter, ih, decide_eq_true_eq, List.mem_append, List.mem_singleton, not_or, and_assoc]

/-- The working data follow the model on the remaining variables if every removed variable had no remaining parent. -/
theorem working_follows {n : Nat} {B : Nat → Nat → ℚ} {X e : Nat → Fin N → ℚ} (he : GoodErrors n e)
    (hX : FollowsModel (range n) B X e) (A : List Nat) (hA : A.Nodup) (hn : ∀ a ∈ A, a < n)
    (htop : ∀ pre m post, A = pre ++ m :: post → ∀ j, j < n → B m j ≠ 0 → j ∈ pre) :
    FollowsModel ((range n).filter (fun i => i ∉ A)) B (working id n X A).1 e := by
  induction A using List.reverseRecOn with
  | nil => simpa [working] using hX
  | append_singleton A m ih =>
    have hA' := List.nodup_append.1 hA
    have hfin : ∀ A' : List Nat, (working id n X A').2.toFinset = (range n).filter (fun i => i ∉ A') := by
      intro A'; ext x; simp [working_mem]
    have ih' := ih hA'.1 (fun a ha => hn a (by simp [ha])) (by
      intro pre m' post hpre j hj hB
      exact htop pre m' (post ++ [m]) (by rw [hpre]; simp) j hj hB)
    rw [← hfin] at ih' ⊢
    rw [working_append]
    have hmn : m < n := hn m (by simp)
    have hmA : m ∉ A := fun h => hA'.2.2 m h m (by simp) rfl
    refine removeEffect_follows ((working_mem _ _ _ _ _).2 ⟨hmn, hmA⟩) ih' ?_ ?_ ?_
    · intro j hj
      obtain ⟨hjn, hjA⟩ := (working_mem _ _ _ _ _).1 hj
      by_contra hB
      exact hjA (htop A m [] rfl j hjn hB)
    · intro i hi him
      exact uncorrelated_iff.1 (he.1 i m ((working_mem _ _ _ _ _).1 hi).1 hmn him)
    · exact nonConstant_iff.1 (he.2 m hmn)

/-! ### Recovery of the order -/

/-- If at every stage the variables without remaining parents are exactly those with the best value, the order
respects the true graph. -/
theorem order_recovers {cfg : Config} (hs : cfg.soft = false) (hm : cfg.measure ≠ .fast) {score : Score}
    {s : List Nat → List Nat → List Nat → List Nat → Nat → ℚ}
    (hnan : ∀ K U Uc Vj i, score K U Uc Vj i = some (s K U Uc Vj i)) {n : Nat} {B : Nat → Nat → ℚ}
    (hac : Acyclic (fun a b => Edge n B 0 a b ∨ ∃ pk, cfg.pk = some pk ∧ MustPrecede n pk a b))
    (hgood : ∀ A U Uc : List Nat, A.Nodup → (∀ a ∈ A, a < n) →
      (∀ pre m post, A = pre ++ m :: post → ∀ j, j < n → B m j ≠ 0 → j ∈ pre) → U.Nodup →
      (∀ x, x ∈ U ↔ x < n ∧ x ∉ A) → ∀ x ∈ U, (∀ j ∈ U, B x j = 0) → ∀ y ∈ U, (∃ j ∈ U, B y j ≠ 0) →
      Beats cfg.measure (s A U Uc [] x) (s A U Uc [] y))
    {order : List Nat} (h : fitOrder cfg score n = .ok order) :
    ∀ pre m post, order = pre ++ m :: post → ∀ j, j < n → B m j ≠ 0 → j ∈ pre := by
  have hord := fitOrder_isOrder h
  have key : ∀ k, ∀ pre m post, pre.length = k → order = pre ++ m :: post → ∀ j, j < n → B m j ≠ 0 → j ∈ pre := by
    intro k
    induction k using Nat.strong_induction_on with
    | _ k ih =>
      intro pre m post hk he j hj hB
      obtain ⟨U, Uc, hU1, hU2, hUc1, hUc2, hmUc, hbest⟩ := fitOrder_best hnan hm hs h he
      have hUn : U.Nodup := hU1.imp (fun h => ne_of_lt h)
      have hpre : pre.Nodup := by
        have := hord.1; rw [he] at this; exact (List.nodup_append.1 this).1
      have hpn : ∀ a ∈ pre, a < n := fun a ha => (hord.2 a).1 (by rw [he]; simp [ha])
      have htop : ∀ pre' m' post', pre = pre' ++ m' :: post' → ∀ j, j < n → B m' j ≠ 0 → j ∈ pre' := by
        intro pre' m' post' hp
        refine ih pre'.length ?_ pre' m' (post' ++ m :: post) rfl (by rw [he, hp]; simp)
        rw [← hk, hp]; simp
      have hmU : m ∈ U := by
        obtain ⟨h1, h2, _⟩ := (hUc2 m).1 hmUc
        exact (hU2 m).2 ⟨h1, h2⟩
      obtain ⟨x, hx, hmin⟩ := exists_minimal hac U (List.ne_nil_of_mem hmU)
      have hxU := (hU2 x).1 hx
      have hxexo : ∀ j ∈ U, B x j = 0 := by
        intro j hj
        by_contra hB
        exact hmin j hj (Or.inl ⟨((hU2 j).1 hj).1, hxU.1, abs_pos.2 hB⟩)
      have hxUc : x ∈ Uc := by
        refine (hUc2 x).2 ⟨hxU.1, hxU.2, ?_⟩
        intro pk hpk a ha
        by_contra hc
        exact hmin a ((hU2 a).2 ⟨ha.1, hc⟩) (Or.inr ⟨pk, hpk, ha⟩)
      by_contra hjp
      exact (hbest x hxUc).1 (hgood pre U Uc hpre hpn htop hUn hU2 x hx hxexo m hmU ⟨j, (hU2 j).2 ⟨hj, hjp⟩, hB⟩)
  exact fun pre m post he => key pre.length pre m post rfl he

theorem pwlingM_nonneg (num : Numerics N) (X : Nat → Fin N → ℚ) (U Uc Vj : List Nat) (i : Nat) :
    0 ≤ pwlingM num X U Uc Vj i := by
  unfold pwlingM
  refine List.sum_nonneg ?_
  intro x hx
  obtain ⟨j, _, rfl⟩ := List.mem_map.1 hx
  exact sq_nonneg _

theorem pwlingM_zero {num : Numerics N} {X : Nat → Fin N → ℚ} {U Uc Vj : List Nat} {i : Nat}
    (h : ∀ j ∈ U, j ≠ i → 0 ≤ pairDiff num X Uc Vj i j) : pwlingM num X U Uc Vj i = 0 := by
  unfold pwlingM
  refine List.sum_eq_zero ?_
  intro x hx
  obtain ⟨j, hj, rfl⟩ := List.mem_map.1 hx
  obtain ⟨h1, h2⟩ := List.mem_filter.1 hj
  rw [min_eq_left (h j h1 (fun hh => (of_decide_eq_true h2) hh.symm))]; simp

theorem pwlingM_pos {num : Numerics N} {X : Nat → Fin N → ℚ} {U Uc Vj : List Nat} {i : Nat}
    (h : ∃ j ∈ U, j ≠ i ∧ pairDiff num X Uc Vj i j < 0) : 0 < pwlingM num X U Uc Vj i := by
  obtain ⟨j, hj, hji, hlt⟩ := h
  unfold pwlingM
  have hmem : (min 0 (pairDiff num X Uc Vj i j)) ^ 2 ∈
      (U.filter (fun j => decide (i ≠ j))).map (fun j => (min 0 (pairDiff num X Uc Vj i j)) ^ 2) :=
    List.mem_map.2 ⟨j, List.mem_filter.2 ⟨hj, by simpa using Ne.symm hji⟩, rfl⟩
  refine lt_of_lt_of_le ?_ (List.single_le_sum ?_ _ hmem)
  · rw [min_eq_right hlt.le]; exact sq_pos_of_neg hlt
  · intro x hx
    obtain ⟨j, _, rfl⟩ := List.mem_map.1 hx
    exact sq_nonneg _

theorem kernelT_zero {num : Numerics N} {X : Nat → Fin N → ℚ} {U Uc : List Nat} {j : Nat}
    (h : ∀ i ∈ U, i ≠ j → num.mi (X j) (residual (X i) (X j)) = 0) : kernelT num X U Uc [] j = 0 := by
  unfold kernelT
  refine List.sum_eq_zero ?_
  intro x hx
  obtain ⟨i, hi, rfl⟩ := List.mem_map.1 hx
  obtain ⟨h1, h2⟩ := List.mem_filter.1 hi
  simp only [List.not_mem_nil, false_and, if_false]
  exact h i h1 (by simpa using h2)

theorem kernelT_pos {num : Numerics N} {X : Nat → Fin N → ℚ} {U Uc : List Nat} {j : Nat}
    (h0 : ∀ i ∈ U, i ≠ j → 0 ≤ num.mi (X j) (residual (X i) (X j)))
    (h : ∃ i ∈ U, i ≠ j ∧ 0 < num.mi (X j) (residual (X i) (X j))) : 0 < kernelT num X U Uc [] j := by
  obtain ⟨i, hi, hij, hlt⟩ := h
  unfold kernelT
  simp only [List.not_mem_nil, false_and, if_false]
  refine lt_of_lt_of_le hlt (List.single_le_sum ?_ _ (List.mem_map.2 ⟨i, List.mem_filter.2 ⟨hi, by simpa using hij⟩, rfl⟩))
  intro x hx
  obtain ⟨k, hk, rfl⟩ := List.mem_map.1 hx
  obtain ⟨h1, h2⟩ := List.mem_filter.1 hk
  exact h0 k h1 (by simpa using h2)

/-! ### Regression -/

/-- Variables earlier in the order are uncorrelated with a later error. -/
theorem earlier_uncorrelated {n : Nat} {B : Nat → Nat → ℚ} {X e : Nat → Fin N → ℚ} (he : GoodErrors n e)
    (hX : FollowsModel (range n) B X e) {order : List Nat} (ho : IsOrder n order)
    (htop : ∀ pre m post, order = pre ++ m :: post → ∀ j, j < n → B m j ≠ 0 → j ∈ pre) {t : Nat} (ht : t < n) :
    ∀ q, Before order q t → sampleCov (X q) (e t) = 0 := by
  have key : ∀ k, ∀ pre q post, pre.length = k → order = pre ++ q :: post → q ≠ t → t ∉ pre →
      sampleCov (X q) (e t) = 0 := by
    intro k
    induction k using Nat.strong_induction_on with
    | _ k ih =>
      intro pre q post hk hq hqt htp
      have hqn : q < n := (ho.2 q).1 (by rw [hq]; simp)
      have : X q = fun r => (∑ j ∈ range n, B q j * X j r) + e q r := by
        funext r; exact hX q (by simpa using hqn) r
      rw [this, sampleCov_add_left, sampleCov_sum_left, uncorrelated_iff.1 (he.1 q t hqn ht hqt), add_zero]
      refine sum_eq_zero fun j hj => ?_
      rw [sampleCov_mul_left]
      by_cases hB : B q j = 0
      · rw [hB, zero_mul]
      · have hjp := htop pre q post hq j (by simpa using hj) hB
        obtain ⟨a, b, rfl⟩ := List.append_of_mem hjp
        rw [ih a.length (by rw [← hk]; simp) a j (b ++ q :: post) rfl (by rw [hq]; simp) (by
          rintro rfl; exact htp (by simp)) (fun h => htp (by simp [h])), mul_zero]
  rintro q ⟨x, y, z, h⟩
  have hn := ho.1
  rw [h, List.nodup_append] at hn
  refine key x.length x q (y ++ t :: z) rfl h ?_ ?_
  · rintro rfl
    have := hn.2.1
    simp at this
  · intro hx; exact hn.2.2 t hx t (by simp) rfl

theorem own_error {n : Nat} {B : Nat → Nat → ℚ} {X e : Nat → Fin N → ℚ} (he : GoodErrors n e)
    (hX : FollowsModel (range n) B X e) {order : List Nat} (ho : IsOrder n order)
    (htop : ∀ pre m post, order = pre ++ m :: post → ∀ j, j < n → B m j ≠ 0 → j ∈ pre) {t : Nat} (ht : t < n) :
    sampleCov (X t) (e t) = sampleCov (e t) (e t) := by
  have : X t = fun r => (∑ j ∈ range n, B t j * X j r) + e t r := by
    funext r; exact hX t (by simpa using ht) r
  conv_lhs => rw [this]
  rw [sampleCov_add_left, sampleCov_sum_left, sum_eq_zero, zero_add]
  intro j hj
  rw [sampleCov_mul_left]
  by_cases hB : B t j = 0
  · rw [hB, zero_mul]
  · obtain ⟨pre, post, hsplit⟩ := List.append_of_mem ((ho.2 t).2 ht)
    have hjp := htop pre t post hsplit j (by simpa using hj) hB
    rw [earlier_uncorrelated he hX ho htop ht j (by
      rw [hsplit]; exact Before.of_mem_append hjp (by simp)), mul_zero]

theorem sum_map_support {n : Nat} {S : List Nat} (hS : S.Nodup) (hn : ∀ p ∈ S, p < n) {f : Nat → ℚ}
    (h : ∀ j, j < n → j ∉ S → f j = 0) : ∑ j ∈ range n, f j = (S.map f).sum := by
  rw [← List.sum_toFinset f hS]
  symm
  refine sum_subset ?_ ?_
  · intro x hx; simpa using hn x (by simpa using hx)
  · intro x hx hx'; exact h x (by simpa using hx) (by simpa using hx')

/-- Least squares on predecessors that include all parents gives the true coefficients. -/
theorem regression_recovers {n : Nat} {B : Nat → Nat → ℚ} {X e : Nat → Fin N → ℚ} (he : GoodErrors n e)
    (hX : FollowsModel (range n) B X e) {order : List Nat} (ho : IsOrder n order)
    (htop : ∀ pre m post, order = pre ++ m :: post → ∀ j, j < n → B m j ≠ 0 → j ∈ pre) {t : Nat} (ht : t < n)
    {S : List Nat} (hS : S.Nodup) (hbef : ∀ p ∈ S, Before order p t) (hpar : ∀ j, j < n → B t j ≠ 0 → j ∈ S)
    {c : Nat → ℚ} (hc : IsLeastSquares S X (X t) c) : ∀ p ∈ S, c p = B t p := by
  have hSn : ∀ p ∈ S, p < n := fun p hp => (ho.2 p).1 (hbef p hp).mem_left
  set D : Fin N → ℚ := fun r => (S.map (fun p => (B t p - c p) * X p r)).sum with hD
  have hres : ∀ r, X t r - (S.map (fun p => c p * X p r)).sum = D r + e t r := by
    intro r
    rw [hX t (by simpa using ht) r, sum_map_support (f := fun j => B t j * X j r) hS hSn (by
      intro j hj hjS
      by_cases hB : B t j = 0
      · rw [hB, zero_mul]
      · exact absurd (hpar j hj hB) hjS), hD]
    have : (S.map (fun p => (B t p - c p) * X p r)).sum =
        (S.map (fun p => B t p * X p r)).sum - (S.map (fun p => c p * X p r)).sum := by
      clear hc hSn hbef hpar hS hD D
      induction S with
      | nil => simp
      | cons a S ih => simp only [List.map_cons, List.sum_cons, ih]; ring
    simp only [this]; ring
  have hDq : ∀ q ∈ S, sampleCov D (X q) = 0 := by
    intro q hq
    have h1 := uncorrelated_iff.1 (hc q hq)
    simp only [hres] at h1
    rw [sampleCov_add_left, sampleCov_comm (e t), earlier_uncorrelated he hX ho htop ht q (hbef q hq), add_zero] at h1
    exact h1
  have hDD : sampleCov D D = 0 := by
    conv_lhs => rw [hD]
    rw [sampleCov_list_left]
    refine List.sum_eq_zero ?_
    intro x hx
    obtain ⟨p, hp, rfl⟩ := List.mem_map.1 hx
    rw [sampleCov_comm, hDq p hp, mul_zero]
  by_contra hcon
  push Not at hcon
  obtain ⟨p0, hp0, hne0⟩ := hcon
  classical
  have hac : Acyclic (fun a b => Before order b a) := by
    intro i hi
    have : ∀ a b, Relation.TransGen (fun a b => Before order b a) a b → Before order b a := by
      intro a b hab
      induction hab with
      | single h => exact h
      | tail _ h ih => exact Before.trans ho.1 h ih
    exact Before.irrefl ho.1 i (this i i hi)
  obtain ⟨p, hp, hmax⟩ := exists_minimal hac (S.filter (fun p => decide (c p ≠ B t p)))
    (List.ne_nil_of_mem (List.mem_filter.2 ⟨hp0, by simpa using hne0⟩))
  obtain ⟨hpS, hpne⟩ := List.mem_filter.1 hp
  have hpne : c p ≠ B t p := by simpa using hpne
  have h0 := sampleCov_const_left hDD (e p)
  rw [hD, sampleCov_list_left] at h0
  have hrest : ∀ q ∈ S, q ≠ p → (B t q - c q) * sampleCov (X q) (e p) = 0 := by
    intro q hq hqp
    by_cases hqe : c q = B t q
    · rw [hqe, sub_self, zero_mul]
    · have h1 := hmax q (List.mem_filter.2 ⟨hq, by simpa using hqe⟩)
      rcases Before.total ((ho.2 q).2 (hSn q hq)) ((ho.2 p).2 (hSn p hpS)) hqp with h2 | h2
      · rw [earlier_uncorrelated he hX ho htop (hSn p hpS) q h2, mul_zero]
      · exact absurd h2 h1
  rw [← List.sum_toFinset _ hS, sum_eq_single p (fun q hq hqp => hrest q (by simpa using hq) hqp)
    (fun h => absurd (by simpa using hpS) h), own_error he hX ho htop (hSn p hpS)] at h0
  rcases mul_eq_zero.1 h0 with h1 | h1
  · exact hpne (sub_eq_zero.1 h1).symm
  · exact nonConstant_iff.1 (he.2 p (hSn p hpS)) h1

/-- Least squares of `dst` on `src` and predecessors of `src` that include its parents: the coefficient of `src` is the
covariance of `dst` with the error of `src` over the variance of that error. -/
theorem effect_regression {n : Nat} {B : Nat → Nat → ℚ} {X e : Nat → Fin N → ℚ} (he : GoodErrors n e)
    (hX : FollowsModel (range n) B X e) {order : List Nat} (ho : IsOrder n order)
    (htop : ∀ pre m post, order = pre ++ m :: post → ∀ j, j < n → B m j ≠ 0 → j ∈ pre) {src : Nat} (hsrc : src < n)
    {P : List Nat} (hP : P.Nodup) (hbef : ∀ p ∈ P, Before order p src) (hpar : ∀ j, j < n → B src j ≠ 0 → j ∈ P)
    {y : Fin N → ℚ} {c : Nat → ℚ} (hc : IsLeastSquares (src :: P) X y c) :
    sampleCov y (e src) = c src * sampleCov (e src) (e src) := by
  have hPn : ∀ p ∈ P, p < n := fun p hp => (ho.2 p).1 (hbef p hp).mem_left
  have hes : e src = fun r => X src r - (P.map (fun p => B src p * X p r)).sum := by
    funext r
    rw [hX src (by simpa using hsrc) r, sum_map_support (f := fun j => B src j * X j r) hP hPn (by
      intro j hj hjS
      by_cases hB : B src j = 0
      · rw [hB, zero_mul]
      · exact absurd (hpar j hj hB) hjS)]
    ring
  have h0 : sampleCov (fun r => y r - ((src :: P).map (fun p => c p * X p r)).sum) (e src) = 0 := by
    conv_lhs => rw [hes]
    rw [sampleCov_comm, sampleCov_sub_left, sampleCov_list_left, sampleCov_comm,
      uncorrelated_iff.1 (hc src (by simp)), zero_sub, neg_eq_zero]
    refine List.sum_eq_zero ?_
    intro x hx
    obtain ⟨p, hp, rfl⟩ := List.mem_map.1 hx
    rw [sampleCov_comm, uncorrelated_iff.1 (hc p (by simp [hp])), mul_zero]
  rw [sampleCov_sub_left, sampleCov_list_left, List.map_cons, List.sum_cons, own_error he hX ho htop hsrc,
    List.sum_eq_zero (l := P.map _) (by
      intro x hx
      obtain ⟨p, hp, rfl⟩ := List.mem_map.1 hx
      rw [earlier_uncorrelated he hX ho htop hsrc p (hbef p hp), mul_zero]), add_zero] at h0
  linarith

end Direct
end Verif
