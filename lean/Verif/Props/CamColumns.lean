import Verif.Props.CamPopulation
import Verif.Props.RcdColumns

/-!
# CAM-UV and the order of the columns (C214)
-/
set_option linter.unusedSectionVars false
set_option autoImplicit false
namespace Verif.Camuv
open Finset
open Rcd (Anc rename reorderedRows rename_lt rename_inj rename_surj sum_rename model_reordered edge_reordered ancestor_reordered
  acyclic_reordered hidden_reordered sigma_reordered weights rows acyclic_of_lt)

section
variable {n m : Nat} {π : Nat → Nat} {B L X : Nat → Nat → ℚ} {σ : Nat → ℚ}

theorem rename_perm (hπ : ((List.range n).map π).Perm (List.range n)) (hnm : n ≤ m) (f : Nat → ℚ) :
    ∑ k ∈ range m, f (rename n π k) = ∑ k ∈ range m, f k := by
  obtain ⟨d, rfl⟩ := Nat.exists_eq_add_of_le hnm
  rw [sum_range_add, sum_range_add]
  congr 1
  · rw [← sum_rename hπ f]
    refine sum_congr rfl fun k hk => ?_
    rw [show rename n π k = π k from if_pos (mem_range.1 hk)]
  · refine sum_congr rfl fun k _ => ?_
    rw [show rename n π (n + k) = n + k from if_neg (by omega)]

/-- A residual in the rearranged model is the residual of the original one, with the sources renamed. -/
theorem residual_reordered (hπ : ((List.range n).map π).Perm (List.range n)) (hnm : n ≤ m) {S : Finset Nat} (hS : ∀ s ∈ S, s < n)
    {i : Nat} (hi : i < n) {r : Nat → ℚ}
    (h : IsResidual m (fun k => σ (rename n π k)) (reorderedRows n π X) S (reorderedRows n π X i) r) :
    ∃ r0, IsResidual m σ X (S.image π) (X (π i)) r0 ∧ ∀ k, k < m → r k = r0 (rename n π k) := by
  obtain ⟨c, h1, h2⟩ := h
  have hinj : Set.InjOn π S := fun a ha b hb e => rename_inj hπ (hS a ha) (hS b hb) e
  classical
  let inv : Nat → Nat := fun a => if h : ∃ s ∈ S, π s = a then h.choose else 0
  have hinv : ∀ s ∈ S, inv (π s) = s := by
    intro s hs
    have hex : ∃ s' ∈ S, π s' = π s := ⟨s, hs, rfl⟩
    have : inv (π s) = hex.choose := dif_pos hex
    rw [this]
    exact hinj hex.choose_spec.1 hs hex.choose_spec.2
  have hval : ∀ k, k < m → r k = X (π i) (rename n π k) - ∑ a ∈ S.image π, c (inv a) * X a (rename n π k) := by
    intro k hk
    rw [h1 k hk, sum_image hinj]
    unfold reorderedRows
    rw [show rename n π i = π i from if_pos hi]
    congr 1
    refine sum_congr rfl fun s hs => ?_
    rw [hinv s hs, show rename n π s = π s from if_pos (hS s hs)]
  refine ⟨fun k => X (π i) k - ∑ a ∈ S.image π, c (inv a) * X a k, ⟨fun a => c (inv a), fun _ _ => rfl, ?_⟩, hval⟩
  intro a ha
  obtain ⟨s, hs, rfl⟩ := mem_image.1 ha
  have h3 := h2 s hs
  unfold popCov at h3 ⊢
  rw [← rename_perm hπ hnm]
  rw [← h3]
  refine sum_congr rfl fun k hk => ?_
  rw [hval k (mem_range.1 hk)]
  unfold reorderedRows
  rw [show rename n π s = π s from if_pos (hS s hs)]

theorem noAccident_reordered (hπ : ((List.range n).map π).Perm (List.range n)) (hnm : n ≤ m) {i : Nat} (hi : i < n)
    (h : NoAccident n m σ B X (π i)) :
    NoAccident n m (fun k => σ (rename n π k)) (reorderedRows n π B) (reorderedRows n π X) i := by
  intro S j r hS hpath hr
  have hSn : ∀ s ∈ S, s < n := fun s hs => (hS s hs).lt_left
  have hj : j < n := by
    unfold AvoidingPath at hpath
    rcases Relation.TransGen.head'_iff.1 hpath with ⟨_, h, _⟩
    exact h.1.1
  obtain ⟨r0, h0, e⟩ := residual_reordered hπ hnm hSn hi hr
  rw [e j (lt_of_lt_of_le hj hnm), show rename n π j = π j from if_pos hj]
  refine h (S.image π) (π j) r0 ?_ ?_ h0
  · intro a ha
    obtain ⟨s, hs, rfl⟩ := mem_image.1 ha
    exact (ancestor_reordered hπ hi (hSn s hs)).1 (hS s hs)
  · have step : ∀ a b, Edge n (reorderedRows n π B) 0 a b ∧ a ∉ S → Edge n B 0 (π a) (π b) ∧ π a ∉ S.image π := by
      rintro a b ⟨h1, h2⟩
      refine ⟨(edge_reordered hπ h1.2.1 h1.1).1 h1, fun hc => ?_⟩
      obtain ⟨s, hs, e⟩ := mem_image.1 hc
      exact h2 ((rename_inj hπ (hSn s hs) h1.1 e) ▸ hs)
    exact Relation.TransGen.lift π (fun a b hab => step a b hab) _ _ hpath

variable {c c' : Cfg}

/-- C214, partial: right tests in both arrangements, hidden causes anywhere, at most two explanatory variables.  A variable without
hidden causes above it has the same parents in both, and the matrix entries between two such variables are the same — provided
nothing cancels by accident and the prior knowledge excludes no true cause. -/
theorem C214_clean_partial (hπ : ((List.range n).map π).Perm (List.range n)) (hX : SourceModel n m B L X)
    (hac : Acyclic (Edge n B 0)) (hσ : ∀ k, k < m → 0 < σ k) (ht : RightTests n m σ X c)
    (ht' : RightTests n m (fun k => σ (rename n π k)) (reorderedRows n π X) c')
    (hacc : ∀ i, i < n → NoHiddenAbove n m B L i → NoAccident n m σ B X i)
    (hprior : ∀ ps, c.prior = some ps → ∀ i j, TrueAncestor n B j i → (j, i) ∉ ps)
    (hprior' : ∀ ps, c'.prior = some ps → ∀ i j, TrueAncestor n B (π j) (π i) → (j, i) ∉ ps)
    {maxnum fuel fuel' : Nat} (hm : maxnum ≤ 2) {P P' : Anc} {A A' : Nat → Nat → Option ℚ}
    (h : fit c n maxnum fuel = some (P, A)) (h' : fit c' n maxnum fuel' = some (P', A')) {i : Nat} (hi : i < n)
    (hc : NoHiddenAbove n m B L (π i)) :
    (∀ j, j < n → (j ∈ P' i ↔ π j ∈ P (π i))) ∧ (∀ j, j < n → (A' i j = some 1 ↔ A (π i) (π j) = some 1)) ∧
      ∀ j, j < n → NoHiddenAbove n m B L (π j) → A' i j = A (π i) (π j) := by
  obtain ⟨a1, a2, a3⟩ := C183_exact_without_hidden_causes hX hac hσ ht hacc hprior hm h (rename_lt hπ hi) hc
  obtain ⟨b1, b2, b3⟩ := C183_exact_without_hidden_causes (model_reordered hπ hX) (acyclic_reordered hπ hac)
    (sigma_reordered hπ hX.1 hσ) ht'
    (fun i hi hc => noAccident_reordered hπ hX.1 hi (hacc _ (rename_lt hπ hi) ((hidden_reordered hπ hi).1 hc)))
    (fun ps hps i j hij => hprior' ps hps i j ((ancestor_reordered hπ hij.lt_right hij.lt_left).1 hij)) hm h' hi
    ((hidden_reordered hπ hi).2 hc)
  have e : ∀ j, j < n → reorderedRows n π B i j = B (π i) (π j) := by
    intro j hj
    unfold reorderedRows
    rw [show rename n π i = π i from if_pos hi, show rename n π j = π j from if_pos hj]
  refine ⟨fun j hj => ?_, fun j hj => ?_, fun j hj hcj => ?_⟩
  · rw [a1, b1, e j hj]
    simp only [hj, rename_lt hπ hj, true_and]
  · rw [a2, b2, e j hj]
    simp only [hj, rename_lt hπ hj, true_and]
  · rw [a3 _ (rename_lt hπ hj) hcj, b3 j hj ((hidden_reordered hπ hj).2 hcj), e j hj]

/-- C214, partial: without hidden causes the whole matrix is the same in every arrangement. -/
theorem C214_no_hidden_partial (hπ : ((List.range n).map π).Perm (List.range n)) (hX : SourceModel n n B L X)
    (hac : Acyclic (Edge n B 0)) (hσ : ∀ k, k < n → 0 < σ k) (ht : RightTests n n σ X c)
    (ht' : RightTests n n (fun k => σ (rename n π k)) (reorderedRows n π X) c') (hacc : ∀ i, i < n → NoAccident n n σ B X i)
    (hprior : ∀ ps, c.prior = some ps → ∀ i j, TrueAncestor n B j i → (j, i) ∉ ps)
    (hprior' : ∀ ps, c'.prior = some ps → ∀ i j, TrueAncestor n B (π j) (π i) → (j, i) ∉ ps) {maxnum : Nat} (hm : maxnum ≤ 2) :
    ∃ P A P' A', (∀ fuel, (n * n + 1) * max 2 maxnum ≤ fuel →
        fit c n maxnum fuel = some (P, A) ∧ fit c' n maxnum fuel = some (P', A')) ∧
      ∀ i j, i < n → j < n → (j ∈ P' i ↔ π j ∈ P (π i)) ∧ A' i j = A (π i) (π j) := by
  obtain ⟨P, A, a1, _, _⟩ := C183_recovers_graph hX hac hσ ht hacc hprior hm
  obtain ⟨P', A', b1, _, _⟩ := C183_recovers_graph (model_reordered hπ hX) (acyclic_reordered hπ hac)
    (sigma_reordered hπ le_rfl hσ) ht' (fun i hi => noAccident_reordered hπ le_rfl hi (hacc _ (rename_lt hπ hi)))
    (fun ps hps i j hij => hprior' ps hps i j ((ancestor_reordered hπ hij.lt_right hij.lt_left).1 hij)) hm
  have hcl : ∀ i, NoHiddenAbove n n B L i := fun i k ⟨h1, h2, _⟩ => by omega
  refine ⟨P, A, P', A', fun fuel hf => ⟨a1 fuel hf, b1 fuel hf⟩, fun i j hi hj => ?_⟩
  have := C214_clean_partial hπ hX hac hσ ht ht' (fun i hi _ => hacc i hi) hprior hprior' hm (a1 _ le_rfl) (b1 _ le_rfl) hi (hcl _)
  exact ⟨this.1 j hj, this.2.2 j hj (hcl _)⟩

end

/-! ### Concrete models -/

/-- `0, 1 → 2`, `0, 2 → 3` and a hidden cause (source 4) of 1 and 3. -/
def arrB : Nat → Nat → ℚ := weights [(2, 0, 2), (2, 1, 2), (3, 0, -1), (3, 2, 2)]
def arrL : Nat → Nat → ℚ := weights [(1, 4, 1), (3, 4, 1)]
def arrX : Nat → Nat → ℚ := rows [[1, 0, 0, 0, 0], [0, 1, 0, 0, 1], [2, 2, 1, 0, 2], [3, 4, 2, 1, 5]]

theorem arr_model : SourceModel 4 5 arrB arrL arrX := by
  refine ⟨by omega, ?_⟩
  decide +kernel

theorem arr_acyclic : Acyclic (Edge 4 arrB 0) := acyclic_of_lt (by decide +kernel)

/-- Column `0` moves behind columns `1` and `2`. -/
def behind (j : Nat) : Nat := if j = 0 then 1 else if j = 1 then 2 else if j = 2 then 0 else j

/-- C214 (violated): right tests in both arrangements; no total effect of a variable or of the hidden cause cancels.  The true edge
from 2 to 3 is NaN in one arrangement and found in the other. -/
theorem C214_hidden_violated : ∃ (B L X : Nat → Nat → ℚ) (σ : Nat → ℚ) (c c' : Cfg) (P P' : Anc) (A A' : Nat → Nat → Option ℚ),
    SourceModel 4 5 B L X ∧ Acyclic (Edge 4 B 0) ∧ (∀ k, k < 5 → 0 < σ k) ∧
    (∀ i < 4, ∀ k < 5, X i k = 0 → ¬ TrueAncestor 4 B k i ∧ ¬ HiddenAbove 4 5 B L i k) ∧
    RightTests 4 5 σ X c ∧ RightTests 4 5 (fun k => σ (rename 4 behind k)) (reorderedRows 4 behind X) c' ∧
    c.prior = none ∧ c'.prior = none ∧ fit c 4 2 40 = some (P, A) ∧ fit c' 4 2 40 = some (P', A') ∧
    B 3 2 ≠ 0 ∧ A 3 2 = none ∧ A' 3 1 = some 1 ∧ behind 1 = 2 ∧ behind 3 = 3 := by
  have key : (fit (popCfg 4 5 (fun _ => 1) arrX none) 4 2 40).map (fun r => r.2 3 2) = some none := by decide +kernel
  have key' : (fit (popCfg 4 5 (fun _ => 1) (reorderedRows 4 behind arrX) none) 4 2 40).map (fun r => r.2 3 1) =
      some (some 1) := by decide +kernel
  obtain ⟨r, hr, e⟩ := Option.map_eq_some_iff.1 key
  obtain ⟨r', hr', e'⟩ := Option.map_eq_some_iff.1 key'
  refine ⟨arrB, arrL, arrX, fun _ => 1, _, _, r.1, r'.1, r.2, r'.2, arr_model, arr_acyclic, fun _ _ => one_pos, ?_,
    popCfg_right (fun _ _ => one_pos) 4 arrX none, popCfg_right (fun _ _ => one_pos) 4 _ none, rfl, rfl, hr, hr',
    by decide +kernel, e, e', rfl, rfl⟩
  -- the ancestors
  have hanc : ∀ a b, TrueAncestor 4 arrB a b → a < b ∧ a < 4 ∧ b < 4 ∧ ¬ (a = 0 ∧ b = 1) := by
    have k1 : ∀ x y : Fin 4, arrB y x ≠ 0 → x.1 < y.1 ∧ y.1 ≠ 1 := by decide +kernel
    intro a b h
    induction h with
    | single h =>
      have := k1 ⟨_, h.1⟩ ⟨_, h.2.1⟩ (abs_pos.1 h.2.2)
      simp only at this
      exact ⟨this.1, h.1, h.2.1, fun hc => this.2 hc.2⟩
    | tail _ h ih =>
      have := k1 ⟨_, h.1⟩ ⟨_, h.2.1⟩ (abs_pos.1 h.2.2)
      simp only at this
      exact ⟨lt_trans ih.1 this.1, ih.2.1, h.2.1, fun hc => this.2 hc.2⟩
  have k2 : ∀ i : Fin 4, ∀ k : Fin 5, arrX i k = 0 → (i.1 < k.1 ∨ (k.1 = 0 ∧ i.1 = 1)) ∧ (k.1 = 4 → i.1 = 0) := by decide +kernel
  intro i hi k hk h0
  have h1 := k2 ⟨i, hi⟩ ⟨k, hk⟩ h0
  simp only at h1
  refine ⟨fun h => ?_, ?_⟩
  · have := hanc _ _ h
    omega
  · rintro ⟨h2, h3, a, ha, hL, h⟩
    have hk4 : k = 4 := by omega
    have hi0 := h1.2 hk4
    subst hk4
    subst hi0
    rcases h with rfl | h
    · exact hL (by decide +kernel)
    · have := hanc _ _ h
      omega

/-- The hypotheses of `C214_clean_partial`: the example of C183 meets those on the original model; tests that are right about the
rearranged data exist, and prior knowledge is renamed with the columns. -/
example : ((List.range 5).map (4 - ·)).Perm (List.range 5) ∧
    RightTests 5 6 (fun k => (fun _ => (1 : ℚ)) (rename 5 (4 - ·) k)) (reorderedRows 5 (4 - ·) exX)
      (popCfg 5 6 (fun _ => 1) (reorderedRows 5 (4 - ·) exX) (some [(0, 1), (2, 4)])) ∧
    (fit (popCfg 5 6 (fun _ => 1) exX (some [(4, 3), (2, 0)])) 5 2 60).map (fun r => (r.2 2 0, r.2 2 1, r.2 0 1)) =
      some (some 1, some 1, some 0) ∧
    (fit (popCfg 5 6 (fun _ => 1) (reorderedRows 5 (4 - ·) exX) (some [(0, 1), (2, 4)])) 5 2 60).map
      (fun r => (r.2 2 4, r.2 2 3, r.2 4 3)) = some (some 1, some 1, some 0) :=
  ⟨by decide +kernel, popCfg_right (fun _ _ => one_pos) 5 _ _, by decide +kernel, by decide +kernel⟩

end Verif.Camuv
