import Verif.Proofs.Paths
import Mathlib.LinearAlgebra.Matrix.NonsingularInverse
import Mathlib.Algebra.BigOperators.Fin

/-! The path sum is the inverse of `1 - B`. -/
set_option linter.unusedSectionVars false

set_option autoImplicit false
namespace Verif.Paths
variable {K : Type} [Field K] [LinearOrder K] [IsStrictOrderedRing K]

theorem enum_stable {tbl : Nat → List Nat} {dst : Nat} : ∀ {d cur : Nat},
    (∀ p, (cur :: p).IsChain (TE tbl) → (cur :: p).length ≤ d) →
    enum tbl dst (d + 1) cur = enum tbl dst d cur := by
  intro d
  induction d with
  | zero => intro cur h; have := h [] (by simp); simp at this
  | succ d ih =>
    intro cur h
    rw [enum, enum]
    split
    · rfl
    · rw [List.flatMap_def, List.flatMap_def]
      congr 1
      apply List.map_congr_left
      intro nx hnx
      rw [ih]
      intro p hp
      have := h (nx :: p) (List.isChain_cons_cons.2 ⟨hnx, hp⟩)
      simp at this ⊢; omega

/-- Sum of path weights from `cur` to `dst`, by depth. -/
def pathSum (n : Nat) (dag : Nat → Nat → Option K) (dst d cur : Nat) : K :=
  ((enum (toIndices n dag 0) dst d cur).map (pathWeight (clean dag))).sum

theorem sum_filter_range {n : Nat} {f : Nat → K} {q : Nat → Bool} (h : ∀ i, i < n → q i = false → f i = 0) :
    (((List.range n).filter q).map f).sum = ∑ i : Fin n, f i := by
  rw [Fin.sum_univ_eq_sum_range (fun i => f i) n]
  induction n with
  | zero => simp
  | succ n ih =>
    rw [List.range_succ, List.filter_append, List.map_append, List.sum_append,
      ih (fun i hi => h i (by omega)), Finset.sum_range_succ]
    congr 1
    cases hq : q n with
    | true => simp [hq]
    | false => simp [hq, h n (by omega) hq]

theorem pathSum_succ {n : Nat} {dag : Nat → Nat → Option K} {dst d cur : Nat} (hc : cur ≠ dst) :
    pathSum n dag dst (d + 1) cur = ∑ k : Fin n, pathSum n dag dst d k * clean dag k cur := by
  unfold pathSum
  rw [enum, if_neg hc]
  have h1 : ((toIndices n dag 0 cur).flatMap
        (fun nx => (enum (toIndices n dag 0) dst d nx).map (cur :: ·))).map (pathWeight (clean dag)) =
      (toIndices n dag 0 cur).flatMap (fun nx =>
        ((enum (toIndices n dag 0) dst d nx).map (pathWeight (clean dag))).map (· * clean dag nx cur)) := by
    rw [List.map_flatMap]
    rw [List.flatMap_def, List.flatMap_def]
    congr 1
    apply List.map_congr_left
    intro nx _
    rw [List.map_map, List.map_map]
    apply List.map_congr_left
    intro p hp
    have := (mem_enum.1 hp).1.1
    cases p with
    | nil => simp at this
    | cons a p =>
      simp at this; subst this
      simp [pathWeight, mul_comm]
  rw [h1, List.flatMap_def, List.sum_flatten, List.map_map]
  have h2 : ∀ nx, (List.sum ∘ fun nx =>
      ((enum (toIndices n dag 0) dst d nx).map (pathWeight (clean dag))).map (· * clean dag nx cur)) nx =
      ((enum (toIndices n dag 0) dst d nx).map (pathWeight (clean dag))).sum * clean dag nx cur := by
    intro nx
    simp only [Function.comp]
    rw [← List.sum_map_mul_right, List.map_map]
    rfl
  rw [List.map_congr_left (fun a _ => h2 a)]
  unfold toIndices
  rw [sum_filter_range]
  intro i _ hq
  simp at hq
  simp [clean, hq]

theorem chain_length_le {n : Nat} {dag : Nat → Nat → Option K} {cur : Nat} (hcur : cur < n)
    (hE : Acyclic (Edge n (clean dag) 0)) (p : List Nat)
    (hp : (cur :: p).IsChain (TE (toIndices n dag 0))) : (cur :: p).length ≤ n := by
  have h1 := (isChain_TE_iff hcur).1 hp
  exact nodup_length_le (chain_nodup hE h1) (chain_lt hcur h1)

/-- The matrix of path sums is a left inverse of `1 - B`. -/
theorem pathSum_mul {n : Nat} {dag : Nat → Nat → Option K} (hE : Acyclic (Edge n (clean dag) 0)) :
    (Matrix.of fun i j : Fin n => pathSum n dag i n j) *
      (1 - Matrix.of fun i j : Fin n => clean dag i j) = 1 := by
  ext i j
  have hn : 0 < n := i.pos
  rw [mul_sub, mul_one, Matrix.sub_apply, Matrix.mul_apply]
  simp only [Matrix.of_apply]
  by_cases hij : j = i
  · subst hij
    have h1 : pathSum n dag j n j = 1 := by
      unfold pathSum
      obtain ⟨m, rfl⟩ : ∃ m, n = m + 1 := ⟨n - 1, by omega⟩
      rw [enum, if_pos rfl]
      simp [pathWeight]
    rw [h1, Matrix.one_apply_eq, Finset.sum_eq_zero]
    · simp
    · intro k _
      by_cases hk : clean dag k j = 0
      · rw [hk, mul_zero]
      · have : enum (toIndices n dag 0) j n k = [] := by
          rw [List.eq_nil_iff_forall_not_mem]
          intro p hp
          rw [mem_enum_acyclic hE k.2] at hp
          obtain ⟨h1, h2, h3⟩ := hp
          have hedge : Edge n (clean dag) 0 j k := ⟨j.2, k.2, abs_pos.2 hk⟩
          cases p with
          | nil => simp at h1
          | cons a p =>
            simp at h1; subst h1
            have h4 : ((j : Nat) :: (k : Nat) :: p).IsChain (Edge n (clean dag) 0) :=
              List.isChain_cons_cons.2 ⟨hedge, h3⟩
            have h5 := chain_nodup hE h4
            rw [List.nodup_cons] at h5
            exact h5.1 (List.mem_of_getLast? h2)
        unfold pathSum
        rw [this]; simp
  · have hne : (j : Nat) ≠ i := fun h => hij (Fin.ext h)
    rw [Matrix.one_apply_ne (Ne.symm hij), ← pathSum_succ hne]
    unfold pathSum
    rw [enum_stable (chain_length_le j.2 hE), sub_self]

theorem inv_apply {n : Nat} {dag : Nat → Nat → Option K} (hE : Acyclic (Edge n (clean dag) 0)) (i j : Fin n) :
    (1 - Matrix.of fun i j : Fin n => clean dag i j)⁻¹ i j = pathSum n dag i n j := by
  rw [Matrix.inv_eq_left_inv (pathSum_mul hE)]
  rfl

end Verif.Paths
