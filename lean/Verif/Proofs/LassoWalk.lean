import Verif.Spec.LassoPath
import Mathlib.Analysis.Convex.Basic
import Mathlib.Analysis.Convex.Segment
import Mathlib.Topology.Algebra.Module.FiniteDimension
import Mathlib.Topology.Order.Compact
import Mathlib.Data.Sign.Defs
import Mathlib.Logic.Relation

/-! Lasso paths exist: the Lasso coefficients of all penalties are a union of finitely many convex pieces, along which one can
go down to penalty 0.  Used by `Props/Support.lean` to show that its hypotheses can be met. -/
set_option linter.unusedSectionVars false
set_option autoImplicit false
namespace Verif.Walk
open Finset

section Walk

variable {E ι : Type} [AddCommGroup E] [Module ℝ E] [TopologicalSpace E] [Fintype ι]

/-- One piece of a path: straight, inside `G`, with decreasing first coordinate. -/
def Step (G : Set (ℝ × E)) (p q : ℝ × E) : Prop := q.1 ≤ p.1 ∧ segment ℝ p q ⊆ G

/-- Through finitely many compact convex pieces that cover all penalties one can go down to 0. -/
theorem walk {D : ι → Set (ℝ × E)} {G : Set (ℝ × E)} {L : ℝ} {p0 : ℝ × E} (hD : ∀ i, IsCompact (D i)) (hc : ∀ i, Convex ℝ (D i))
    (h0 : ∀ i, ∀ p ∈ D i, 0 ≤ p.1) (hG : ∀ i, D i ⊆ G) (hfib : ∀ p ∈ G, ∀ q ∈ G, p.1 = q.1 → segment ℝ p q ⊆ G)
    (hcov : ∀ l, 0 ≤ l → l ≤ L → ∃ i, ∃ p ∈ D i, p.1 = l) (hL : 0 ≤ L) (hp0 : p0 ∈ G) (hp0L : p0.1 = L) :
    ∃ q ∈ G, q.1 = 0 ∧ Relation.ReflTransGen (Step G) p0 q := by
  classical
  let a : ι → ℝ := fun i => sInf (Prod.fst '' D i)
  let b : ι → ℝ := fun i => sSup (Prod.fst '' D i)
  have hI : ∀ i, IsCompact (Prod.fst '' D i) := fun i => (hD i).image continuous_fst
  let R : ℝ → Prop := fun c => 0 ≤ c ∧ c ≤ L ∧ ∃ q ∈ G, q.1 = c ∧ Relation.ReflTransGen (Step G) p0 q
  let S : Finset ℝ := (insert L (univ.image a)).filter R
  have hS : S.Nonempty := ⟨L, by
    refine mem_filter.2 ⟨mem_insert_self _ _, hL, le_rfl, p0, hp0, hp0L, Relation.ReflTransGen.refl⟩⟩
  obtain ⟨hcC, hcR⟩ := mem_filter.1 (S.min'_mem hS)
  have hmin : ∀ c ∈ S, S.min' hS ≤ c := fun c h => S.min'_le c h
  generalize S.min' hS = c at hcC hcR hmin
  obtain ⟨hc0, hcL, q, hqG, hqc, hq⟩ := hcR
  rcases hc0.eq_or_lt with h | hpos
  · exact ⟨q, hqG, by rw [hqc, ← h], hq⟩
  exfalso
  let F : Finset ℝ := (insert 0 (univ.image b)).filter (· < c)
  have hF : F.Nonempty := ⟨0, mem_filter.2 ⟨mem_insert_self _ _, hpos⟩⟩
  set M := F.max' hF with hM
  have hMc : M < c := (mem_filter.1 (F.max'_mem hF)).2
  have hM0 : 0 ≤ M := F.le_max' 0 (mem_filter.2 ⟨mem_insert_self _ _, hpos⟩)
  obtain ⟨i, p, hp, hpl⟩ := hcov ((M + c) / 2) (by linarith) (by linarith)
  have hne : (Prod.fst '' D i).Nonempty := ⟨_, p, hp, rfl⟩
  obtain ⟨pa, hpa, ea⟩ := (hI i).sInf_mem hne
  obtain ⟨pb, hpb, eb⟩ := (hI i).sSup_mem hne
  have ha : pa.1 ≤ p.1 := by rw [ea]; exact csInf_le (hI i).bddBelow ⟨p, hp, rfl⟩
  have hb : p.1 ≤ pb.1 := by rw [eb]; exact le_csSup (hI i).bddAbove ⟨p, hp, rfl⟩
  have hbc : c ≤ pb.1 := by
    by_contra hlt
    have : pb.1 ≤ M := F.le_max' _ (mem_filter.2 ⟨mem_insert_of_mem (mem_image.2 ⟨i, mem_univ _, eb.symm⟩), not_le.1 hlt⟩)
    linarith
  have hac : pa.1 < c := by linarith
  have hz : ∃ z ∈ D i, z.1 = c := by
    have hd : 0 < pb.1 - pa.1 := by linarith
    refine ⟨((pb.1 - c) / (pb.1 - pa.1)) • pa + ((c - pa.1) / (pb.1 - pa.1)) • pb, hc i hpa hpb
      (div_nonneg (by linarith) hd.le) (div_nonneg (by linarith) hd.le) (by field_simp; ring), ?_⟩
    simp only [Prod.fst_add, Prod.smul_fst, smul_eq_mul]
    field_simp
    ring
  obtain ⟨z, hz, hzc⟩ := hz
  have s1 : Step G q z := ⟨by rw [hzc, hqc], hfib q hqG z (hG i hz) (by rw [hzc, hqc])⟩
  have s2 : Step G z pa := ⟨by rw [hzc]; exact hac.le, ((hc i).segment_subset hz hpa).trans (hG i)⟩
  have := hmin pa.1 (mem_filter.2 ⟨mem_insert_of_mem (mem_image.2 ⟨i, mem_univ _, ea.symm⟩), h0 i pa hpa, by linarith, pa, hG i hpa, rfl,
    (hq.tail s1).tail s2⟩)
  linarith

end Walk

section Kkt

variable {m N : Nat} {x : Fin m → Fin N → ℝ} {y : Fin N → ℝ} {l : ℝ} {u v : Fin m → ℝ}

/-- Errors of coefficients. -/
def res (x : Fin m → Fin N → ℝ) (y : Fin N → ℝ) (v : Fin m → ℝ) (r : Fin N) : ℝ := y r - ∑ k, v k * x k r

/-- Product of the errors with a column. -/
def grad (x : Fin m → Fin N → ℝ) (y : Fin N → ℝ) (v : Fin m → ℝ) (k : Fin m) : ℝ := ∑ r, res x y v r * x k r

/-- The Lasso objective. -/
noncomputable def obj (x : Fin m → Fin N → ℝ) (y : Fin N → ℝ) (l : ℝ) (v : Fin m → ℝ) : ℝ := (∑ r, res x y v r ^ 2) / 2 + l * ∑ k, |v k|

theorem res_sub (u v : Fin m → ℝ) (r : Fin N) : res x y u r = res x y v r - ∑ k, (u k - v k) * x k r := by
  unfold res
  simp only [sub_mul, sum_sub_distrib]
  ring

theorem obj_sub (u v : Fin m → ℝ) : obj x y l u = obj x y l v - ∑ k, grad x y v k * (u k - v k) +
    (∑ r, (∑ k, (u k - v k) * x k r) ^ 2) / 2 + l * (∑ k, |u k| - ∑ k, |v k|) := by
  have e1 : ∑ k, grad x y v k * (u k - v k) = ∑ r, res x y v r * ∑ k, (u k - v k) * x k r := by
    simp only [grad, sum_mul, mul_sum]
    rw [sum_comm]
    exact sum_congr rfl fun r _ => sum_congr rfl fun k _ => by ring
  have e2 : ∑ r, res x y u r ^ 2 = ∑ r, res x y v r ^ 2 - 2 * ∑ r, res x y v r * ∑ k, (u k - v k) * x k r +
      ∑ r, (∑ k, (u k - v k) * x k r) ^ 2 := by
    rw [mul_sum, ← sum_sub_distrib, ← sum_add_distrib]
    exact sum_congr rfl fun r _ => by rw [res_sub u v r]; ring
  unfold obj
  rw [e1, e2]; ring

/-- The conditions for a minimum. -/
def Kkt (x : Fin m → Fin N → ℝ) (y : Fin N → ℝ) (l : ℝ) (v : Fin m → ℝ) : Prop := ∀ k, |grad x y v k| ≤ l ∧ grad x y v k * v k = l * |v k|

theorem kkt_min (h : Kkt x y l v) (u : Fin m → ℝ) : obj x y l v ≤ obj x y l u := by
  rw [obj_sub u v]
  have h1 : 0 ≤ (∑ r, (∑ k, (u k - v k) * x k r) ^ 2) / 2 := div_nonneg (sum_nonneg fun r _ => sq_nonneg _) (by norm_num)
  have h2 : ∑ k, grad x y v k * (u k - v k) ≤ l * (∑ k, |u k| - ∑ k, |v k|) := by
    rw [← sum_sub_distrib, mul_sum]
    refine sum_le_sum fun k _ => ?_
    rw [mul_sub, (h k).2, mul_sub]
    refine sub_le_sub_right ?_ _
    refine (le_abs_self _).trans ?_
    rw [abs_mul]
    exact mul_le_mul_of_nonneg_right (h k).1 (abs_nonneg _)
  linarith

theorem min_kkt (h0 : 0 ≤ l) (h : ∀ u, obj x y l v ≤ obj x y l u) : Kkt x y l v := by
  have vi : ∀ u : Fin m → ℝ, ∑ k, grad x y v k * (u k - v k) ≤ l * (∑ k, |u k| - ∑ k, |v k|) := by
    intro u
    set Q := (∑ r, (∑ k, (u k - v k) * x k r) ^ 2) / 2 with hQ
    have hQ0 : 0 ≤ Q := div_nonneg (sum_nonneg fun r _ => sq_nonneg _) (by norm_num)
    set A := ∑ k, grad x y v k * (u k - v k)
    set C := l * (∑ k, |u k| - ∑ k, |v k|)
    have step : ∀ t : ℝ, 0 < t → t ≤ 1 → A ≤ C + t * Q := by
      intro t ht ht1
      have h1 := h (fun k => v k + t * (u k - v k))
      rw [obj_sub (fun k => v k + t * (u k - v k)) v] at h1
      have e1 : ∑ k, grad x y v k * (v k + t * (u k - v k) - v k) = t * A := by
        rw [mul_sum]; exact sum_congr rfl fun k _ => by ring
      have e2 : (∑ r, (∑ k, (v k + t * (u k - v k) - v k) * x k r) ^ 2) / 2 = t ^ 2 * Q := by
        rw [hQ, ← mul_div_assoc, mul_sum]
        congr 1
        refine sum_congr rfl fun r _ => ?_
        rw [← mul_pow, mul_sum]
        congr 1
        exact sum_congr rfl fun k _ => by ring
      have e3 : l * (∑ k, |v k + t * (u k - v k)| - ∑ k, |v k|) ≤ t * C := by
        have : ∑ k, |v k + t * (u k - v k)| - ∑ k, |v k| ≤ t * (∑ k, |u k| - ∑ k, |v k|) := by
          rw [← sum_sub_distrib, ← sum_sub_distrib, mul_sum]
          refine sum_le_sum fun k _ => ?_
          have e : v k + t * (u k - v k) = (1 - t) * v k + t * u k := by ring
          have := abs_add_le ((1 - t) * v k) (t * u k)
          rw [abs_mul, abs_mul, abs_of_pos ht, abs_of_nonneg (by linarith : 0 ≤ 1 - t)] at this
          rw [e]
          linarith
        have := mul_le_mul_of_nonneg_left this h0
        calc _ ≤ _ := this
          _ = t * C := by ring
      rw [e1, e2] at h1
      have : t * A ≤ t * (C + t * Q) := by nlinarith
      exact le_of_mul_le_mul_left this ht
    refine le_of_forall_pos_le_add fun ε hε => ?_
    have hp : 0 < min 1 (ε / (Q + 1)) := lt_min one_pos (div_pos hε (by linarith))
    have := step _ hp (min_le_left _ _)
    have h2 : min 1 (ε / (Q + 1)) * Q ≤ ε := by
      have h3 : min 1 (ε / (Q + 1)) * Q ≤ ε / (Q + 1) * Q := mul_le_mul_of_nonneg_right (min_le_right _ _) hQ0
      have h4 : ε / (Q + 1) * Q ≤ ε := by
        rw [div_mul_eq_mul_div, div_le_iff₀ (by linarith)]
        nlinarith
      linarith
    linarith
  intro k
  have one : ∀ c : ℝ, grad x y v k * (c - v k) ≤ l * (|c| - |v k|) := by
    intro c
    have h1 := vi (Function.update v k c)
    have e1 : ∑ i, grad x y v i * (Function.update v k c i - v i) = grad x y v k * (c - v k) := by
      rw [sum_eq_single k (fun i _ hi => by rw [Function.update_of_ne hi]; ring) (fun h => absurd (mem_univ _) h), Function.update_self]
    have e2 : ∑ i, |Function.update v k c i| - ∑ i, |v i| = |c| - |v k| := by
      rw [← sum_sub_distrib, sum_eq_single k (fun i _ hi => by rw [Function.update_of_ne hi]; ring) (fun h => absurd (mem_univ _) h),
        Function.update_self]
    rwa [e1, e2] at h1
  have z1 := one 0
  have z2 := one (2 * v k)
  rw [abs_zero] at z1
  rw [abs_mul, abs_two] at z2
  have heq : grad x y v k * v k = l * |v k| := by linarith
  refine ⟨abs_le.2 ⟨?_, ?_⟩, heq⟩
  · have := one (-1)
    rw [abs_neg, abs_one] at this
    linarith
  · have := one 1
    rw [abs_one] at this
    linarith

theorem grad_comb {a b : ℝ} (hab : a + b = 1) (u v : Fin m → ℝ) (k : Fin m) :
    grad x y (a • u + b • v) k = a * grad x y u k + b * grad x y v k := by
  unfold grad
  rw [mul_sum, mul_sum, ← sum_add_distrib]
  refine sum_congr rfl fun r _ => ?_
  have : res x y (a • u + b • v) r = a * res x y u r + b * res x y v r := by
    unfold res
    have e : ∑ k, (a • u + b • v) k * x k r = a * ∑ k, u k * x k r + b * ∑ k, v k * x k r := by
      rw [mul_sum, mul_sum, ← sum_add_distrib]
      exact sum_congr rfl fun k _ => by simp only [Pi.add_apply, Pi.smul_apply, smul_eq_mul]; ring
    rw [e]
    have hb : b = 1 - a := by linarith
    subst hb
    ring
  rw [this]; ring

theorem continuous_grad (k : Fin m) : Continuous fun p : ℝ × (Fin m → ℝ) => grad x y p.2 k := by
  unfold grad res
  fun_prop

/-- The sign as a number. -/
def num : SignType → ℝ
  | .zero => 0
  | .neg => -1
  | .pos => 1

/-- The Lasso coefficients with given signs, for penalties up to `L`. -/
def piece (x : Fin m → Fin N → ℝ) (y : Fin N → ℝ) (L B : ℝ) (s : Fin m → SignType) : Set (ℝ × (Fin m → ℝ)) :=
  {p | (0 ≤ p.1 ∧ p.1 ≤ L) ∧ ∀ k, |grad x y p.2 k| ≤ p.1 ∧ |p.2 k| ≤ num (s k) * p.2 k ∧ num (s k) * grad x y p.2 k = |num (s k)| * p.1 ∧
    |p.2 k| ≤ B}

theorem piece_kkt {L B : ℝ} {s : Fin m → SignType} {p : ℝ × (Fin m → ℝ)} (h : p ∈ piece x y L B s) : Kkt x y p.1 p.2 := by
  intro k
  obtain ⟨h1, h2, h3, -⟩ := h.2 k
  refine ⟨h1, ?_⟩
  cases hs : s k
  · rw [hs] at h2
    have : p.2 k = 0 := by
      rw [num, zero_mul] at h2
      exact abs_eq_zero.1 (le_antisymm h2 (abs_nonneg _))
    rw [this]; simp
  · rw [hs] at h2 h3
    simp only [num, abs_neg, abs_one, neg_mul, one_mul] at h2 h3
    have : |p.2 k| = - p.2 k := le_antisymm h2 (neg_le_abs _)
    rw [this]
    have : grad x y p.2 k = - p.1 := by linarith
    rw [this]; ring
  · rw [hs] at h2 h3
    simp only [num, abs_one, one_mul] at h2 h3
    have : |p.2 k| = p.2 k := le_antisymm h2 (le_abs_self _)
    rw [this, h3]

theorem piece_convex (L B : ℝ) (s : Fin m → SignType) : Convex ℝ (piece x y L B s) := by
  intro p hp q hq a b ha hb hab
  have habs : ∀ c d C D : ℝ, |c| ≤ C → |d| ≤ D → |a * c + b * d| ≤ a * C + b * D := by
    intro c d C D h1 h2
    refine (abs_add_le _ _).trans ?_
    rw [abs_mul, abs_mul, abs_of_nonneg ha, abs_of_nonneg hb]
    exact add_le_add (mul_le_mul_of_nonneg_left h1 ha) (mul_le_mul_of_nonneg_left h2 hb)
  refine ⟨⟨?_, ?_⟩, fun k => ?_⟩
  · have h1 := mul_nonneg ha hp.1.1
    have h2 := mul_nonneg hb hq.1.1
    simp only [Prod.fst_add, Prod.smul_fst, smul_eq_mul]
    linarith
  · have h1 := mul_le_mul_of_nonneg_left hp.1.2 ha
    have h2 := mul_le_mul_of_nonneg_left hq.1.2 hb
    have h3 : a * L + b * L = L := by rw [← add_mul, hab, one_mul]
    simp only [Prod.fst_add, Prod.smul_fst, smul_eq_mul]
    linarith
  · obtain ⟨a1, a2, a3, a4⟩ := hp.2 k
    obtain ⟨b1, b2, b3, b4⟩ := hq.2 k
    have eg : grad x y (a • p + b • q).2 k = a * grad x y p.2 k + b * grad x y q.2 k := by
      rw [Prod.snd_add, Prod.smul_snd, Prod.smul_snd, grad_comb hab]
    have e1 : (a • p + b • q).1 = a * p.1 + b * q.1 := by simp
    have e2 : (a • p + b • q).2 k = a * p.2 k + b * q.2 k := by simp
    rw [eg, e1, e2]
    refine ⟨habs _ _ _ _ a1 b1, ?_, ?_, ?_⟩
    · refine (habs _ _ _ _ a2 b2).trans (le_of_eq (by ring))
    · linear_combination a * a3 + b * b3
    · refine (habs _ _ _ _ a4 b4).trans (le_of_eq ?_)
      rw [← add_mul, hab, one_mul]

theorem piece_compact (L B : ℝ) (s : Fin m → SignType) : IsCompact (piece x y L B s) := by
  refine ((isCompact_Icc (a := (0 : ℝ)) (b := L)).prod (isCompact_univ_pi fun _ : Fin m => isCompact_Icc (a := -B) (b := B))).of_isClosed_subset ?_ ?_
  · have e : piece x y L B s = ({p | 0 ≤ p.1} ∩ {p | p.1 ≤ L}) ∩ ⋂ k, ({p | |grad x y p.2 k| ≤ p.1} ∩ ({p | |p.2 k| ≤ num (s k) * p.2 k} ∩
        ({p | num (s k) * grad x y p.2 k = |num (s k)| * p.1} ∩ {p | |p.2 k| ≤ B}))) := by
      ext p
      simp [piece]
    have hg := fun k => continuous_grad (x := x) (y := y) k
    have hk : ∀ k : Fin m, Continuous fun p : ℝ × (Fin m → ℝ) => p.2 k := fun k => (continuous_apply k).comp continuous_snd
    rw [e]
    refine IsClosed.inter (IsClosed.inter (isClosed_le continuous_const continuous_fst) (isClosed_le continuous_fst continuous_const))
      (isClosed_iInter fun k => IsClosed.inter (isClosed_le (hg k).abs continuous_fst) (IsClosed.inter (isClosed_le (hk k).abs
        (continuous_const.mul (hk k))) (IsClosed.inter (isClosed_eq (continuous_const.mul (hg k)) (continuous_const.mul continuous_fst))
          (isClosed_le (hk k).abs continuous_const))))
  · intro p hp
    exact ⟨hp.1, fun k _ => abs_le.1 (hp.2 k).2.2.2⟩

/-- The Lasso coefficients of one penalty are a convex set. -/
theorem fibre {p q : ℝ × (Fin m → ℝ)} (hp : ∀ u, obj x y p.1 p.2 ≤ obj x y p.1 u) (hq : ∀ u, obj x y q.1 q.2 ≤ obj x y q.1 u) (hp0 : 0 ≤ p.1)
    (he : p.1 = q.1) {z : ℝ × (Fin m → ℝ)} (hz : z ∈ segment ℝ p q) : z.1 = p.1 ∧ ∀ u, obj x y z.1 z.2 ≤ obj x y z.1 u := by
  obtain ⟨a, b, ha, hb, hab, rfl⟩ := hz
  have e1 : (a • p + b • q).1 = p.1 := by
    simp only [Prod.fst_add, Prod.smul_fst, smul_eq_mul, ← he]
    rw [← add_mul, hab, one_mul]
  refine ⟨e1, fun u => ?_⟩
  rw [e1]
  refine le_trans ?_ (hp u)
  have hq' : obj x y p.1 q.2 ≤ obj x y p.1 p.2 := by rw [he]; exact hq p.2
  have hcx : obj x y p.1 (a • p + b • q).2 ≤ a * obj x y p.1 p.2 + b * obj x y p.1 q.2 := by
    have hr : ∀ r, res x y (a • p + b • q).2 r ^ 2 ≤ a * res x y p.2 r ^ 2 + b * res x y q.2 r ^ 2 := by
      intro r
      have e : res x y (a • p + b • q).2 r = a * res x y p.2 r + b * res x y q.2 r := by
        unfold res
        have e : ∑ k, (a • p + b • q).2 k * x k r = a * ∑ k, p.2 k * x k r + b * ∑ k, q.2 k * x k r := by
          rw [mul_sum, mul_sum, ← sum_add_distrib]
          exact sum_congr rfl fun k _ => by
            simp only [Prod.snd_add, Prod.smul_snd, Pi.add_apply, Pi.smul_apply, smul_eq_mul]; ring
        rw [e]
        have hb : b = 1 - a := by linarith
        subst hb
        ring
      rw [e]
      have hb' : b = 1 - a := by linarith
      subst hb'
      nlinarith [mul_nonneg (mul_nonneg ha hb) (sq_nonneg (res x y p.2 r - res x y q.2 r))]
    have hn : ∀ k, |(a • p + b • q).2 k| ≤ a * |p.2 k| + b * |q.2 k| := by
      intro k
      have e : (a • p + b • q).2 k = a * p.2 k + b * q.2 k := by simp
      rw [e]
      refine (abs_add_le _ _).trans ?_
      rw [abs_mul, abs_mul, abs_of_nonneg ha, abs_of_nonneg hb]
    have s1 := sum_le_sum fun r (_ : r ∈ (univ : Finset (Fin N))) => hr r
    have s2 := mul_le_mul_of_nonneg_left (sum_le_sum fun k (_ : k ∈ (univ : Finset (Fin m))) => hn k) hp0
    rw [sum_add_distrib, ← mul_sum, ← mul_sum] at s1 s2
    unfold obj
    nlinarith
  have := mul_le_mul_of_nonneg_left hq' hb
  have e : a * obj x y p.1 p.2 + b * obj x y p.1 p.2 = obj x y p.1 p.2 := by rw [← add_mul, hab, one_mul]
  linarith

/-- For every penalty there are Lasso coefficients, and they are bounded. -/
theorem exists_min {w : Fin m → ℝ} (hw : ∀ u, ∑ r, res x y w r ^ 2 ≤ ∑ r, res x y u r ^ 2) (h0 : 0 ≤ l) :
    ∃ v, (∀ u, obj x y l v ≤ obj x y l u) ∧ ∀ k, |v k| ≤ ∑ i, |w i| := by
  set B := ∑ i, |w i| with hB
  have hle : ∀ (v : Fin m → ℝ), ∑ i, |v i| ≤ B → ∀ k, |v k| ≤ B := fun v hv k =>
    (single_le_sum (f := fun i => |v i|) (fun i _ => abs_nonneg _) (mem_univ k)).trans hv
  have hcomp : IsCompact {v : Fin m → ℝ | ∑ i, |v i| ≤ B} := by
    refine (isCompact_univ_pi fun _ : Fin m => isCompact_Icc (a := -B) (b := B)).of_isClosed_subset
      (isClosed_le (by fun_prop) continuous_const) fun v hv k _ => abs_le.1 (hle v hv k)
  have hcont : Continuous (obj x y l) := by
    unfold obj res
    fun_prop
  obtain ⟨v, hv, hmin⟩ := hcomp.exists_isMinOn ⟨w, show ∑ i, |w i| ≤ B from le_rfl⟩ hcont.continuousOn
  refine ⟨v, fun u => ?_, hle v hv⟩
  by_cases hu : ∑ i, |u i| ≤ B
  · exact hmin hu
  · have h1 : obj x y l v ≤ obj x y l w := hmin (show ∑ i, |w i| ≤ B from le_rfl)
    have h2 := hw u
    have h3 := mul_le_mul_of_nonneg_left (not_le.1 hu).le h0
    refine h1.trans ?_
    unfold obj
    rw [← hB]
    linarith

/-- The pieces cover all penalties. -/
theorem cover {L : ℝ} {w : Fin m → ℝ} (hw : ∀ u, ∑ r, res x y w r ^ 2 ≤ ∑ r, res x y u r ^ 2) (h0 : 0 ≤ l) (hL : l ≤ L) :
    ∃ s, ∃ p ∈ piece x y L (∑ i, |w i|) s, p.1 = l := by
  obtain ⟨v, hv, hB⟩ := exists_min hw h0
  have hk := min_kkt h0 hv
  refine ⟨fun k => SignType.sign (v k), (l, v), ⟨⟨h0, hL⟩, fun k => ⟨(hk k).1, ?_, ?_, hB k⟩⟩, rfl⟩
  · rcases lt_trichotomy (v k) 0 with h | h | h
    · simp only [sign_neg h, num]
      rw [abs_of_neg h]; linarith
    · simp [h]
    · simp only [sign_pos h, num]
      rw [abs_of_pos h]; linarith
  · have h2 := (hk k).2
    rcases lt_trichotomy (v k) 0 with h | h | h
    · simp only [sign_neg h]
      show -1 * _ = |(-1 : ℝ)| * _
      rw [abs_of_neg h] at h2
      have : grad x y v k = -l := by
        have : (grad x y v k + l) * v k = 0 := by linarith
        rcases mul_eq_zero.1 this with h3 | h3
        · linarith
        · exact absurd h3 h.ne
      rw [this]; simp
    · simp only [h, sign_zero]
      show (0 : ℝ) * _ = |(0 : ℝ)| * _
      simp
    · simp only [sign_pos h]
      show (1 : ℝ) * _ = |(1 : ℝ)| * _
      rw [abs_of_pos h] at h2
      rw [mul_right_cancel₀ h.ne' h2]; simp

/-- From 0 the Lasso coefficients go down to penalty 0 in finitely many straight pieces. -/
theorem down {w : Fin m → ℝ} (hw : ∀ u, ∑ r, res x y w r ^ 2 ≤ ∑ r, res x y u r ^ 2) :
    ∃ (L : ℝ) (q : ℝ × (Fin m → ℝ)), q.1 = 0 ∧ (0 ≤ q.1 ∧ ∀ u, obj x y q.1 q.2 ≤ obj x y q.1 u) ∧
      Relation.ReflTransGen (Step {p | 0 ≤ p.1 ∧ ∀ u, obj x y p.1 p.2 ≤ obj x y p.1 u}) (L, 0) q := by
  have hL : 0 ≤ ∑ k, |grad x y 0 k| := sum_nonneg fun k _ => abs_nonneg _
  obtain ⟨q, hqG, hq0, hq⟩ := walk (D := piece x y (∑ k, |grad x y 0 k|) (∑ i, |w i|))
    (G := {p | 0 ≤ p.1 ∧ ∀ u, obj x y p.1 p.2 ≤ obj x y p.1 u}) (L := ∑ k, |grad x y 0 k|) (p0 := (∑ k, |grad x y 0 k|, 0))
    (piece_compact _ _) (piece_convex _ _) (fun _ p hp => hp.1.1) (fun _ p hp => ⟨hp.1.1, kkt_min (piece_kkt hp)⟩)
    (fun p hp q hq he z hz => by
      have := fibre hp.2 hq.2 hp.1 he hz
      exact ⟨by rw [this.1]; exact hp.1, this.2⟩)
    (fun l h0 hl => cover hw h0 hl) hL
    ⟨hL, kkt_min fun k => ⟨single_le_sum (f := fun k => |grad x y 0 k|) (fun i _ => abs_nonneg _) (mem_univ k), by simp⟩⟩ rfl
  exact ⟨_, q, hq0, hqG, hq⟩

end Kkt

section List

variable {N : Nat} {cols : List (Fin N → ℝ)} {y : Fin N → ℝ}

/-- Coefficients as a function on all numbers. -/
def ext {m : Nat} (v : Fin m → ℝ) (k : Nat) : ℝ := if h : k < m then v ⟨k, h⟩ else 0

theorem ext_fin {m : Nat} (v : Fin m → ℝ) (k : Fin m) : ext v k = v k := by simp [ext]

theorem unexplained_res (w : Nat → ℝ) (r : Fin N) :
    unexplained cols y 0 w r = res (fun k : Fin cols.length => cols.getD k 0) y (fun k => w k) r := by
  unfold unexplained res
  rw [Finset.sum_range, sub_zero]

theorem lassoMin_iff {l : ℝ} (v : Fin cols.length → ℝ) : LassoMin cols y l (ext v) ↔
    ∀ u, obj (fun k : Fin cols.length => cols.getD k 0) y l v ≤ obj (fun k : Fin cols.length => cols.getD k 0) y l u := by
  have e : ∀ w : Nat → ℝ, (∑ r, unexplained cols y 0 w r ^ 2) / 2 + l * ∑ k ∈ range cols.length, |w k| =
      obj (fun k : Fin cols.length => cols.getD k 0) y l (fun k => w k) := by
    intro w
    unfold obj
    simp only [unexplained_res, Finset.sum_range]
  have ev : ∀ v : Fin cols.length → ℝ, (fun k : Fin cols.length => ext v k) = v := fun v => funext (ext_fin v)
  unfold LassoMin
  constructor
  · intro h u
    have := h (ext u)
    rwa [e, e, ev, ev] at this
  · intro h u
    rw [e, e, ev]
    exact h _

/-- A walk is a Lasso path. -/
theorem path_of_walk {p q : ℝ × (Fin cols.length → ℝ)} (hq0 : q.1 = 0) (hqG : 0 ≤ q.1 ∧ LassoMin cols y q.1 (ext q.2))
    (h : Relation.ReflTransGen (Step {p | 0 ≤ p.1 ∧ ∀ u, obj (fun k : Fin cols.length => cols.getD k 0) y p.1 p.2 ≤
      obj (fun k : Fin cols.length => cols.getD k 0) y p.1 u}) p q) :
    ∃ (l : List (Nat → ℝ)) (lam : Nat → ℝ), lam 0 = p.1 ∧ ext q.2 ∈ ext p.2 :: l ∧
      (∀ i, i < (ext p.2 :: l).length → 0 ≤ lam i ∧ LassoMin cols y (lam i) ((ext p.2 :: l).getD i 0)) ∧
      lam ((ext p.2 :: l).length - 1) = 0 ∧ ∀ i, i + 1 < (ext p.2 :: l).length → lam (i + 1) ≤ lam i ∧ ∀ θ : ℝ, 0 ≤ θ → θ ≤ 1 →
        LassoMin cols y ((1 - θ) * lam i + θ * lam (i + 1))
          (fun k => (1 - θ) * (ext p.2 :: l).getD i 0 k + θ * (ext p.2 :: l).getD (i + 1) 0 k) := by
  induction h using Relation.ReflTransGen.head_induction_on with
  | refl =>
    refine ⟨[], fun _ => q.1, rfl, by simp, fun i hi => ?_, hq0, fun i hi => by simp at hi⟩
    have : i = 0 := by simpa using hi
    subst this
    exact hqG
  | @head p p' hstep _ ih =>
    obtain ⟨l, lam, h0, hmem, hmin, hlast, hlin⟩ := ih
    refine ⟨ext p'.2 :: l, fun i => if i = 0 then p.1 else lam (i - 1), rfl, List.mem_cons_of_mem _ hmem, fun i hi => ?_, ?_, fun i hi => ?_⟩
    · rcases i with _ | i
      · have := hstep.2 (left_mem_segment ℝ p p')
        exact ⟨this.1, (lassoMin_iff p.2).2 this.2⟩
      · simpa using hmin i (by simpa using hi)
    · simpa using hlast
    · rcases i with _ | i
      · simp only [zero_add, if_true, one_ne_zero, if_false, Nat.sub_self, h0]
        refine ⟨hstep.1, fun θ hθ0 hθ1 => ?_⟩
        have := hstep.2 ⟨1 - θ, θ, by linarith, hθ0, by ring, rfl⟩
        have h2 := (lassoMin_iff _).2 this.2
        have e1 : ((1 - θ) • p + θ • p').1 = (1 - θ) * p.1 + θ * p'.1 := by simp
        have e2 : ext ((1 - θ) • p + θ • p').2 = fun k => (1 - θ) * ext p.2 k + θ * ext p'.2 k := by
          funext k
          unfold ext
          by_cases hk : k < cols.length
          · simp [hk]
          · simp [hk]
        rw [e1, e2] at h2
        exact h2
      · have := hlin i (by simpa using hi)
        simpa using this

/-- For centred data there is a Lasso path that begins with 0 and ends with least squares coefficients. -/
theorem exists_path {w : Nat → ℝ} (hw : ∀ u : Nat → ℝ, ∑ r, unexplained cols y 0 w r ^ 2 ≤ ∑ r, unexplained cols y 0 u r ^ 2)
    (hc : ∀ x ∈ cols, ∑ r, x r = 0) (hy : ∑ r, y r = 0) :
    ∃ l, LassoPath cols y ((fun _ => 0) :: l) ∧ ∃ v ∈ (fun _ => 0) :: l, SolvesRegression cols y 0 v := by
  obtain ⟨L, q, hq0, hqG, hq⟩ := down (x := fun k : Fin cols.length => cols.getD k 0) (y := y) (w := fun k => w k) (fun u => by
    have := hw (ext u)
    simp only [unexplained_res] at this
    rwa [show (fun k : Fin cols.length => ext u k) = u from funext (ext_fin u)] at this)
  obtain ⟨l, lam, h0, hmem, h1, h2, h3⟩ := path_of_walk hq0 ⟨hqG.1, (lassoMin_iff q.2).2 hqG.2⟩ hq
  have e0 : ext (0 : Fin cols.length → ℝ) = fun _ => 0 := by
    funext k
    simp [ext]
  dsimp only at h0 hmem h1 h2 h3
  rw [e0] at hmem h1 h2 h3
  refine ⟨l, ⟨lam, h1, h2, h3⟩, ext q.2, hmem, ?_⟩
  have hk := min_kkt hqG.1 hqG.2
  refine ⟨?_, fun k hk' => ?_⟩
  · unfold unexplained
    simp only [sub_zero, sum_sub_distrib, hy]
    rw [sum_comm]
    simp only [← mul_sum]
    rw [sum_eq_zero fun k hk => ?_, sub_zero]
    have hk := mem_range.1 hk
    rw [show cols.getD k 0 = cols[k] by simp [List.getD, hk], hc _ (List.getElem_mem hk), mul_zero]
  · have := (hk ⟨k, hk'⟩).1
    rw [hq0] at this
    have h := abs_eq_zero.1 (le_antisymm this (abs_nonneg _))
    unfold grad at h
    simp only [unexplained_res]
    rw [show (fun k : Fin cols.length => ext q.2 k) = q.2 from funext (ext_fin q.2)]
    exact h

end List

end Verif.Walk
