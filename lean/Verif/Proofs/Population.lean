import Verif.Spec.Population
import Verif.Proofs.Order
import Mathlib.Algebra.Order.BigOperators.Ring.Finset
import Mathlib.Algebra.BigOperators.Ring.Finset
import Mathlib.Tactic.Ring
import Mathlib.Tactic.Linarith
import Mathlib.Tactic.FieldSimp

set_option linter.unusedSectionVars false
set_option autoImplicit false
namespace Verif
open Finset

/-! ### Covariance -/

theorem popCov_comm (m : Nat) (σ u v : Nat → ℚ) : popCov m σ u v = popCov m σ v u :=
  sum_congr rfl fun k _ => by ring

theorem popCov_congr {m : Nat} {σ u u' v v' : Nat → ℚ} (hu : ∀ k, k < m → u k = u' k) (hv : ∀ k, k < m → v k = v' k) :
    popCov m σ u v = popCov m σ u' v' :=
  sum_congr rfl fun k hk => by rw [hu k (mem_range.1 hk), hv k (mem_range.1 hk)]

theorem popCov_sub_left (m : Nat) (σ u v w : Nat → ℚ) :
    popCov m σ (fun k => u k - v k) w = popCov m σ u w - popCov m σ v w := by
  unfold popCov
  rw [← sum_sub_distrib]
  exact sum_congr rfl fun k _ => by ring

theorem popCov_smul_left (m : Nat) (σ u w : Nat → ℚ) (a : ℚ) :
    popCov m σ (fun k => a * u k) w = a * popCov m σ u w := by
  unfold popCov
  rw [mul_sum]
  exact sum_congr rfl fun k _ => by ring

theorem popCov_sum_left (m : Nat) (σ w : Nat → ℚ) (S : Finset Nat) (c : Nat → ℚ) (Y : Nat → Nat → ℚ) :
    popCov m σ (fun k => ∑ h ∈ S, c h * Y h k) w = ∑ h ∈ S, c h * popCov m σ (Y h) w := by
  unfold popCov
  simp only [mul_sum, sum_mul]
  rw [sum_comm]
  exact sum_congr rfl fun h _ => sum_congr rfl fun k _ => by ring

theorem popCov_self_eq_zero {m : Nat} {σ u : Nat → ℚ} (hσ : ∀ k, k < m → 0 < σ k) (h : popCov m σ u u = 0) :
    ∀ k, k < m → u k = 0 := by
  intro k hk
  have hnn : ∀ k ∈ range m, 0 ≤ σ k * (u k * u k) := fun k hk =>
    mul_nonneg (hσ k (mem_range.1 hk)).le (mul_self_nonneg _)
  have := (sum_eq_zero_iff_of_nonneg hnn).1 h k (mem_range.2 hk)
  rcases mul_eq_zero.1 this with h0 | h0
  · exact absurd h0 (hσ k hk).ne'
  · exact mul_self_eq_zero.1 h0

theorem popCov_disjoint {m : Nat} {σ u v : Nat → ℚ} (h : ShareNoSource m u v) : popCov m σ u v = 0 :=
  sum_eq_zero fun k hk => by
    rcases h k (mem_range.1 hk) with h | h <;> rw [h] <;> ring

theorem exists_common_source {m : Nat} {σ u v : Nat → ℚ} (h : popCov m σ u v ≠ 0) : ∃ k, k < m ∧ u k ≠ 0 ∧ v k ≠ 0 := by
  by_contra hc
  push Not at hc
  refine h (popCov_disjoint fun k hk => ?_)
  by_cases hu : u k = 0
  · exact Or.inl hu
  · exact Or.inr (hc k hk hu)

theorem popCov_single {m : Nat} {σ v : Nat → ℚ} {j : Nat} (hj : j < m) :
    popCov m σ (fun k => if k = j then 1 else 0) v = σ j * v j := by
  unfold popCov
  rw [sum_eq_single j]
  · simp
  · intro k _ hk; simp [hk]
  · intro h; exact absurd (mem_range.2 hj) h

/-! ### Regression -/

theorem IsResidual.unique {m : Nat} {σ : Nat → ℚ} (hσ : ∀ k, k < m → 0 < σ k) {Y : Nat → Nat → ℚ} {S : Finset Nat}
    {v r r' : Nat → ℚ} (h : IsResidual m σ Y S v r) (h' : IsResidual m σ Y S v r') : ∀ k, k < m → r k = r' k := by
  obtain ⟨c, hc, ho⟩ := h
  obtain ⟨c', hc', ho'⟩ := h'
  have hd : ∀ k, k < m → r k - r' k = ∑ h ∈ S, (c' h - c h) * Y h k := by
    intro k hk
    rw [hc k hk, hc' k hk]
    simp only [sub_mul, sum_sub_distrib]
    ring
  have h0 : popCov m σ (fun k => r k - r' k) (fun k => r k - r' k) = 0 := by
    rw [popCov_congr (u := fun k => r k - r' k) (u' := fun k => ∑ h ∈ S, (c' h - c h) * Y h k) hd (fun _ _ => rfl),
      popCov_sum_left]
    refine sum_eq_zero fun h hh => ?_
    rw [popCov_comm, popCov_sub_left, ho h hh, ho' h hh, sub_zero, mul_zero]
  intro k hk
  exact sub_eq_zero.1 (popCov_self_eq_zero hσ h0 k hk)

theorem IsResidual.congr {m : Nat} {σ : Nat → ℚ} {Y : Nat → Nat → ℚ} {S : Finset Nat} {v r r' : Nat → ℚ}
    (h : IsResidual m σ Y S v r) (he : ∀ k, k < m → r' k = r k) : IsResidual m σ Y S v r' := by
  obtain ⟨c, hc, ho⟩ := h
  refine ⟨c, fun k hk => by rw [he k hk, hc k hk], fun h hh => ?_⟩
  rw [← ho h hh]
  exact popCov_congr he fun _ _ => rfl

/-- Residuals by successive orthogonalisation. -/
def residual (m : Nat) (σ : Nat → ℚ) (Y : Nat → Nat → ℚ) : List Nat → (Nat → ℚ) → Nat → ℚ
  | [], v => v
  | a :: l, v =>
    let ra := residual m σ Y l (Y a)
    let rv := residual m σ Y l v
    let q := popCov m σ rv ra / popCov m σ ra ra
    fun k => rv k - q * ra k

theorem residual_spec {m : Nat} {σ : Nat → ℚ} (hσ : ∀ k, k < m → 0 < σ k) (Y : Nat → Nat → ℚ) :
    ∀ (l : List Nat) (v : Nat → ℚ), IsResidual m σ Y l.toFinset v (residual m σ Y l v)
  | [], v => ⟨fun _ => 0, by simp [residual], by simp⟩
  | a :: l, v => by
    obtain ⟨ca, hca, hoa⟩ := residual_spec hσ Y l (Y a)
    obtain ⟨cv, hcv, hov⟩ := residual_spec hσ Y l v
    set ra := residual m σ Y l (Y a) with hra
    set rv := residual m σ Y l v with hrv
    set q := popCov m σ rv ra / popCov m σ ra ra with hq
    have he : ∀ k, residual m σ Y (a :: l) v k = rv k - q * ra k := fun k => rfl
    have hla : ∀ h ∈ l.toFinset, popCov m σ (fun k => rv k - q * ra k) (Y h) = 0 := by
      intro h hh
      rw [popCov_sub_left, popCov_smul_left, hov h hh, hoa h hh]; ring
    have hself : popCov m σ (fun k => rv k - q * ra k) ra = 0 := by
      rw [popCov_sub_left, popCov_smul_left, hq]
      by_cases h0 : popCov m σ ra ra = 0
      · have hz := popCov_self_eq_zero hσ h0
        have : popCov m σ rv ra = 0 := popCov_disjoint fun k hk => Or.inr (hz k hk)
        rw [this, h0]; ring
      · field_simp; ring
    have hYa : popCov m σ (fun k => rv k - q * ra k) (Y a) = 0 := by
      have : ∀ k, k < m → Y a k = ra k - (-1) * ∑ h ∈ l.toFinset, ca h * Y h k := fun k hk => by rw [hca k hk]; ring
      rw [popCov_congr (fun _ _ => rfl) this, popCov_comm, popCov_sub_left, popCov_smul_left, popCov_sum_left,
        popCov_comm, hself]
      rw [sum_eq_zero]
      · ring
      · intro h hh
        rw [popCov_comm, hla h hh, mul_zero]
    by_cases hal : a ∈ l.toFinset
    · have hs : (a :: l).toFinset = l.toFinset := by rw [List.toFinset_cons, insert_eq_of_mem hal]
      rw [hs]
      refine ⟨fun h => cv h - q * ca h + (if h = a then q else 0), ?_, ?_⟩
      · intro k hk
        rw [he, hcv k hk, hca k hk]
        have : ∀ h ∈ l.toFinset, (cv h - q * ca h + (if h = a then q else 0)) * Y h k = cv h * Y h k - q * (ca h * Y h k) +
            (if h = a then q * Y h k else 0) := by
          intro h _
          split <;> ring
        rw [sum_congr rfl this, sum_add_distrib, sum_sub_distrib, ← mul_sum, sum_ite_eq' l.toFinset a, if_pos hal]
        ring
      · exact hla
    · rw [List.toFinset_cons]
      refine ⟨fun h => if h = a then q else cv h - q * ca h, ?_, ?_⟩
      · intro k hk
        rw [sum_insert hal, he, hcv k hk, hca k hk]
        have : ∀ h ∈ l.toFinset, (if h = a then q else cv h - q * ca h) * Y h k = cv h * Y h k - q * (ca h * Y h k) := by
          intro h hh
          rw [if_neg (by rintro rfl; exact hal hh)]; ring
        rw [sum_congr rfl this, sum_sub_distrib, ← mul_sum]
        simp only [if_true]
        ring
      · intro h hh
        rcases mem_insert.1 hh with rfl | hh
        · exact hYa
        · exact hla h hh

theorem exists_residual {m : Nat} {σ : Nat → ℚ} (hσ : ∀ k, k < m → 0 < σ k) (Y : Nat → Nat → ℚ) (S : Finset Nat)
    (v : Nat → ℚ) : ∃ r, IsResidual m σ Y S v r := by
  have := residual_spec hσ Y S.toList v
  rw [Finset.toList_toFinset] at this
  exact ⟨_, this⟩

/-! ### The sources of a variable -/

section model
variable {n m : Nat} {B L X : Nat → Nat → ℚ}

theorem TrueAncestor.lt_left {j i : Nat} (h : TrueAncestor n B j i) : j < n := by
  induction h with
  | single h => exact h.1
  | tail _ _ ih => exact ih

theorem TrueAncestor.lt_right {j i : Nat} (h : TrueAncestor n B j i) : i < n := by
  cases h with
  | single h => exact h.2.1
  | tail _ h => exact h.2.1

theorem TrueAncestor.trans {a b c : Nat} (h : TrueAncestor n B a b) (h' : TrueAncestor n B b c) : TrueAncestor n B a c :=
  Relation.TransGen.trans h h'

theorem TrueAncestor.asymm (hac : Acyclic (Edge n B 0)) {a b : Nat} (h : TrueAncestor n B a b) : ¬ TrueAncestor n B b a :=
  fun h' => hac a (h.trans h')

theorem TrueAncestor.ne (hac : Acyclic (Edge n B 0)) {a b : Nat} (h : TrueAncestor n B a b) : a ≠ b := by
  rintro rfl; exact hac a h

theorem trueAncestor_of_edge {j i : Nat} (hj : j < n) (hi : i < n) (h : B i j ≠ 0) : TrueAncestor n B j i :=
  .single ⟨hj, hi, abs_pos.2 h⟩

theorem acyclic_ancestor (hac : Acyclic (Edge n B 0)) : Acyclic (TrueAncestor n B) := by
  intro i hi
  refine hac i ?_
  have : ∀ a b, Relation.TransGen (TrueAncestor n B) a b → TrueAncestor n B a b := by
    intro a b h
    induction h with
    | single h => exact h
    | tail _ h ih => exact ih.trans h
  exact this i i hi

theorem acyclic_flip {E : Nat → Nat → Prop} (h : Acyclic E) : Acyclic (fun a b => E b a) := by
  intro i hi
  refine h i ?_
  have : ∀ a b, Relation.TransGen (fun a b => E b a) a b → Relation.TransGen E b a := by
    intro a b hab
    induction hab with
    | single h => exact .single h
    | tail _ h ih => exact .head h ih
  exact this i i hi

/-- Only own errors of ancestors occur in a variable. -/
theorem source_ancestor (hX : SourceModel n m B L X) (hac : Acyclic (Edge n B 0)) {i k : Nat} (hi : i < n) (hk : k < n)
    (h : X i k ≠ 0) : k = i ∨ TrueAncestor n B k i := by
  classical
  by_contra hcon
  obtain ⟨i', hi', hmin⟩ := exists_minimal hac
    ((List.range n).filter (fun i => decide (X i k ≠ 0 ∧ ¬ (k = i ∨ TrueAncestor n B k i))))
    (List.ne_nil_of_mem (List.mem_filter.2 ⟨List.mem_range.2 hi, by rw [decide_eq_true_eq]; exact ⟨h, hcon⟩⟩))
  simp only [List.mem_filter, List.mem_range, decide_eq_true_eq] at hi' hmin
  obtain ⟨hin, hne, hnot⟩ := hi'
  rw [hX.2 i' hin k (hk.trans_le hX.1), if_pos hk, if_neg (fun h => hnot (Or.inl h)), add_zero] at hne
  obtain ⟨j, hj, hj0⟩ := exists_ne_zero_of_sum_ne_zero hne
  have hjn := mem_range.1 hj
  have hB : B i' j ≠ 0 := fun h => hj0 (by rw [h, zero_mul])
  have hXj : X j k ≠ 0 := fun h => hj0 (by rw [h, mul_zero])
  have hE : Edge n B 0 j i' := ⟨hjn, hin, abs_pos.2 hB⟩
  by_cases hc : k = j ∨ TrueAncestor n B k j
  · rcases hc with rfl | hc
    · exact hnot (Or.inr (.single hE))
    · exact hnot (Or.inr (.tail hc hE))
  · exact hmin j ⟨hjn, hXj, hc⟩ hE

theorem source_self (hX : SourceModel n m B L X) (hac : Acyclic (Edge n B 0)) {i : Nat} (hi : i < n) : X i i = 1 := by
  rw [hX.2 i hi i (hi.trans_le hX.1), if_pos hi, if_pos rfl, sum_eq_zero, zero_add]
  intro j hj
  have hjn := mem_range.1 hj
  by_contra hne
  have hB : B i j ≠ 0 := fun h => hne (by rw [h, zero_mul])
  have hXj : X j i ≠ 0 := fun h => hne (by rw [h, mul_zero])
  have hE := trueAncestor_of_edge hjn hi hB
  rcases source_ancestor hX hac hjn hi hXj with rfl | h
  · exact hac i hE
  · exact hac i (h.trans hE)

/-- The variables of a set are linearly independent even on their own errors alone. -/
theorem sources_independent_own (hX : SourceModel n m B L X) (hac : Acyclic (Edge n B 0)) {S : Finset Nat}
    (hS : ∀ h ∈ S, h < n) {c : Nat → ℚ} (h0 : ∀ k ∈ S, ∑ h ∈ S, c h * X h k = 0) : ∀ h ∈ S, c h = 0 := by
  classical
  by_contra hcon
  push Not at hcon
  obtain ⟨h1, hh1, hc1⟩ := hcon
  obtain ⟨p, hp, hmin⟩ := exists_minimal (acyclic_flip (acyclic_ancestor hac))
    ((List.range n).filter (fun h => decide (h ∈ S ∧ c h ≠ 0)))
    (List.ne_nil_of_mem (List.mem_filter.2 ⟨List.mem_range.2 (hS h1 hh1), by simpa using ⟨hh1, hc1⟩⟩))
  simp only [List.mem_filter, List.mem_range, decide_eq_true_eq] at hp hmin
  obtain ⟨hpn, hpS, hpc⟩ := hp
  have := h0 p hpS
  rw [sum_eq_single p, source_self hX hac hpn, mul_one] at this
  · exact hpc this
  · intro q hq hqp
    by_contra hne
    have hcq : c q ≠ 0 := fun h => hne (by rw [h, zero_mul])
    have hXq : X q p ≠ 0 := fun h => hne (by rw [h, mul_zero])
    rcases source_ancestor hX hac (hS q hq) hpn hXq with h | h
    · exact hqp h.symm
    · exact hmin q ⟨hS q hq, hq, hcq⟩ h
  · exact fun h => absurd hpS h

/-- The variables are linearly independent. -/
theorem sources_independent (hX : SourceModel n m B L X) (hac : Acyclic (Edge n B 0)) {S : Finset Nat}
    (hS : ∀ h ∈ S, h < n) {c : Nat → ℚ} (h0 : ∀ k, k < n → ∑ h ∈ S, c h * X h k = 0) : ∀ h ∈ S, c h = 0 :=
  sources_independent_own hX hac hS fun k hk => h0 k (hS k hk)

end model

end Verif
