import Verif.Props.RcdHidden

/-!
# RCD and the order of the columns (C213)
-/
set_option linter.unusedSectionVars false
set_option autoImplicit false
namespace Verif.Rcd
open Finset

/-- Column `j` of the rearranged data is column `π j` of the original; the errors are renamed with their variables, hidden causes
keep their names. -/
def rename (n : Nat) (π : Nat → Nat) (k : Nat) : Nat := if k < n then π k else k

/-- A matrix over variables and sources, in the names of the rearranged data. -/
def reorderedRows (n : Nat) (π : Nat → Nat) (A : Nat → Nat → ℚ) : Nat → Nat → ℚ := fun i k => A (rename n π i) (rename n π k)

section
variable {n m : Nat} {π : Nat → Nat} {B L X : Nat → Nat → ℚ} {σ : Nat → ℚ}

theorem rename_lt (hπ : ((List.range n).map π).Perm (List.range n)) {i : Nat} (hi : i < n) : π i < n :=
  List.mem_range.1 (hπ.mem_iff.1 (List.mem_map_of_mem (List.mem_range.2 hi)))

theorem rename_inj (hπ : ((List.range n).map π).Perm (List.range n)) {i j : Nat} (hi : i < n) (hj : j < n) (h : π i = π j) : i = j :=
  List.inj_on_of_nodup_map (hπ.nodup_iff.2 List.nodup_range) (List.mem_range.2 hi) (List.mem_range.2 hj) h

theorem rename_surj (hπ : ((List.range n).map π).Perm (List.range n)) {i : Nat} (hi : i < n) : ∃ j, j < n ∧ π j = i := by
  obtain ⟨j, hj, e⟩ := List.mem_map.1 (hπ.mem_iff.2 (List.mem_range.2 hi))
  exact ⟨j, List.mem_range.1 hj, e⟩

theorem sum_rename (hπ : ((List.range n).map π).Perm (List.range n)) (f : Nat → ℚ) :
    ∑ j ∈ range n, f (π j) = ∑ j ∈ range n, f j := by
  refine sum_bij (fun j _ => π j) (fun j hj => mem_range.2 (rename_lt hπ (mem_range.1 hj)))
    (fun i hi j hj h => rename_inj hπ (mem_range.1 hi) (mem_range.1 hj) h) (fun j hj => ?_) (fun _ _ => rfl)
  obtain ⟨i, hi, e⟩ := rename_surj hπ (mem_range.1 hj)
  exact ⟨i, mem_range.2 hi, e⟩

/-- The rearranged data come from the rearranged model. -/
theorem model_reordered (hπ : ((List.range n).map π).Perm (List.range n)) (hX : SourceModel n m B L X) :
    SourceModel n m (reorderedRows n π B) (reorderedRows n π L) (reorderedRows n π X) := by
  refine ⟨hX.1, fun i hi k hk => ?_⟩
  have hsum : ∑ j ∈ range n, reorderedRows n π B i j * reorderedRows n π X j k =
      ∑ j ∈ range n, B (π i) j * X j (rename n π k) := by
    rw [← sum_rename hπ (fun j => B (π i) j * X j (rename n π k))]
    refine sum_congr rfl fun j hj => ?_
    unfold reorderedRows
    rw [show rename n π i = π i from if_pos hi, show rename n π j = π j from if_pos (mem_range.1 hj)]
  have hkm : rename n π k < m := by
    unfold rename
    split
    · rename_i h; exact lt_of_lt_of_le (rename_lt hπ h) hX.1
    · exact hk
  have h := hX.2 (π i) (rename_lt hπ hi) _ hkm
  rw [hsum]
  unfold reorderedRows
  rw [show rename n π i = π i from if_pos hi, h]
  congr 1
  by_cases hkn : k < n
  · rw [show rename n π k = π k from if_pos hkn, if_pos hkn, if_pos (rename_lt hπ hkn)]
    by_cases e : k = i
    · rw [if_pos e, if_pos (by rw [e])]
    · rw [if_neg e, if_neg fun h => e (rename_inj hπ hkn hi h)]
  · rw [show rename n π k = k from if_neg hkn, if_neg hkn, if_neg hkn]

theorem edge_reordered (hπ : ((List.range n).map π).Perm (List.range n)) {i j : Nat} (hi : i < n) (hj : j < n) :
    Edge n (reorderedRows n π B) 0 j i ↔ Edge n B 0 (π j) (π i) := by
  unfold Edge reorderedRows
  rw [show rename n π i = π i from if_pos hi, show rename n π j = π j from if_pos hj]
  simp only [hi, hj, rename_lt hπ hi, rename_lt hπ hj, true_and]

theorem ancestor_reordered (hπ : ((List.range n).map π).Perm (List.range n)) {i j : Nat} (hi : i < n) (hj : j < n) :
    TrueAncestor n (reorderedRows n π B) j i ↔ TrueAncestor n B (π j) (π i) := by
  constructor
  · intro h
    unfold TrueAncestor at h
    induction h with
    | single h => exact .single ((edge_reordered hπ h.2.1 hj).1 h)
    | tail _ h ih => exact (ih h.1).tail ((edge_reordered hπ h.2.1 h.1).1 h)
  · intro h
    unfold TrueAncestor at h
    have key : ∀ b, Relation.TransGen (Edge n B 0) (π j) b → ∀ i, i < n → π i = b → TrueAncestor n (reorderedRows n π B) j i := by
      intro b hb
      induction hb with
      | single h =>
        rintro i hi rfl
        exact .single ((edge_reordered hπ hi hj).2 h)
      | @tail b c _ h ih =>
        rintro i hi rfl
        obtain ⟨k, hk, rfl⟩ := rename_surj hπ h.1
        exact (ih k hk rfl).tail ((edge_reordered hπ hi hk).2 h)
    exact key _ h i hi rfl

theorem acyclic_reordered (hπ : ((List.range n).map π).Perm (List.range n)) (hac : Acyclic (Edge n B 0)) :
    Acyclic (Edge n (reorderedRows n π B) 0) := by
  intro i h
  have hi : i < n := TrueAncestor.lt_left h
  exact hac _ ((ancestor_reordered hπ hi hi).1 h)

theorem hidden_reordered (hπ : ((List.range n).map π).Perm (List.range n)) {i : Nat} (hi : i < n) :
    NoHiddenAbove n m (reorderedRows n π B) (reorderedRows n π L) i ↔ NoHiddenAbove n m B L (π i) := by
  refine forall_congr' fun k => not_congr ?_
  constructor
  · rintro ⟨h1, h2, a, ha, hL, h⟩
    unfold reorderedRows at hL
    rw [show rename n π a = π a from if_pos ha, show rename n π k = k from if_neg (by omega)] at hL
    refine ⟨h1, h2, π a, rename_lt hπ ha, hL, ?_⟩
    rcases h with rfl | h
    · exact Or.inl rfl
    · exact Or.inr ((ancestor_reordered hπ hi ha).1 h)
  · rintro ⟨h1, h2, b, hb, hL, h⟩
    obtain ⟨a, ha, rfl⟩ := rename_surj hπ hb
    refine ⟨h1, h2, a, ha, ?_, ?_⟩
    · unfold reorderedRows
      rw [show rename n π a = π a from if_pos ha, show rename n π k = k from if_neg (by omega)]
      exact hL
    · rcases h with h | h
      · exact Or.inl (rename_inj hπ ha hi h)
      · exact Or.inr ((ancestor_reordered hπ hi ha).2 h)

theorem sigma_reordered (hπ : ((List.range n).map π).Perm (List.range n)) (hnm : n ≤ m) (hσ : ∀ k, k < m → 0 < σ k) :
    ∀ k, k < m → 0 < σ (rename n π k) := by
  intro k hk
  refine hσ _ ?_
  unfold rename
  split
  · rename_i h; exact lt_of_lt_of_le (rename_lt hπ h) hnm
  · exact hk

theorem faithful_reordered (hπ : ((List.range n).map π).Perm (List.range n))
    (hf : ∀ i j, NoHiddenAbove n m B L j → TrueAncestor n B j i → X i j ≠ 0) :
    ∀ i j, NoHiddenAbove n m (reorderedRows n π B) (reorderedRows n π L) j → TrueAncestor n (reorderedRows n π B) j i →
      reorderedRows n π X i j ≠ 0 := by
  intro i j hc h
  have hi := h.lt_right
  have hj := h.lt_left
  unfold reorderedRows
  rw [show rename n π i = π i from if_pos hi, show rename n π j = π j from if_pos hj]
  exact hf _ _ ((hidden_reordered hπ hj).1 hc) ((ancestor_reordered hπ hi hj).1 h)

variable {t t' : Tests} {coef coef' : Coef} {fuel fuel' : Nat} {M M' : Anc} {A A' : Nat → Nat → Option ℚ}

/-- C213, partial: right tests and regressions, `max_explanatory_num` 1 or 2 (the default), hidden causes anywhere.  For a variable
without hidden causes above it, the recorded ancestors and descendants are the same in every arrangement of the columns, and its
coefficients agree wherever both are numbers. -/
theorem C213_clean_partial (hπ : ((List.range n).map π).Perm (List.range n)) (hX : SourceModel n m B L X)
    (hac : Acyclic (Edge n B 0)) (hσ : ∀ k, k < m → 0 < σ k)
    (hf : ∀ i j, NoHiddenAbove n m B L j → TrueAncestor n B j i → X i j ≠ 0)
    (ht : PerfectTests n m σ X t) (hcoef : PerfectCoef n m σ X coef)
    (ht' : PerfectTests n m (fun k => σ (rename n π k)) (reorderedRows n π X) t')
    (hcoef' : PerfectCoef n m (fun k => σ (rename n π k)) (reorderedRows n π X) coef') {maxNum : Nat}
    (hm : maxNum = 1 ∨ maxNum = 2) (h : fit t coef n maxNum fuel = some (M, A)) (h' : fit t' coef' n maxNum fuel' = some (M', A'))
    {i : Nat} (hi : i < n) (hc : NoHiddenAbove n m B L (π i)) :
    (∀ j, j < n → (j ∈ M' i ↔ π j ∈ M (π i))) ∧ (∀ j, j < n → (i ∈ M' j ↔ π i ∈ M (π j))) ∧
      ∀ j, j < n → ∀ v w, A (π i) (π j) = some v → A' i j = some w → v = w := by
  obtain ⟨a1, a2, a3⟩ := C177_clean_variable_default hX hac hσ hf ht hcoef hm h (rename_lt hπ hi) hc
  obtain ⟨b1, b2, b3⟩ := C177_clean_variable_default (model_reordered hπ hX) (acyclic_reordered hπ hac)
    (sigma_reordered hπ hX.1 hσ) (faithful_reordered hπ hf) ht' hcoef' hm h' hi ((hidden_reordered hπ hi).2 hc)
  refine ⟨fun j hj => ?_, fun j hj => ?_, fun j hj v w hv hw => ?_⟩
  · rw [a1, b1, ancestor_reordered hπ hi hj]
  · rw [a2, b2, ancestor_reordered hπ hj hi]
  · rcases a3 (π j) (rename_lt hπ hj) with e | e
    · rw [e] at hv; cases hv
    rcases b3 j hj with e' | e'
    · rw [e'] at hw; cases hw
    rw [e] at hv
    rw [e'] at hw
    cases hv
    cases hw
    unfold reorderedRows
    rw [show rename n π i = π i from if_pos hi, show rename n π j = π j from if_pos hj]

/-- C213, partial: without hidden causes the whole result (ancestors and matrix) is the same in every arrangement. -/
theorem C213_no_hidden_partial (hπ : ((List.range n).map π).Perm (List.range n)) (hX : SourceModel n n B L X)
    (hac : Acyclic (Edge n B 0)) (hσ : ∀ k, k < n → 0 < σ k) (hf : ∀ i j, TrueAncestor n B j i → X i j ≠ 0)
    (ht : PerfectTests n n σ X t) (hcoef : PerfectCoef n n σ X coef)
    (ht' : PerfectTests n n (fun k => σ (rename n π k)) (reorderedRows n π X) t')
    (hcoef' : PerfectCoef n n (fun k => σ (rename n π k)) (reorderedRows n π X) coef') {maxNum : Nat}
    (hm : maxNum = 1 ∨ maxNum = 2) :
    ∃ M A M' A', (∀ fuel, n * n * maxNum + maxNum ≤ fuel → fit t coef n maxNum fuel = some (M, A) ∧
        fit t' coef' n maxNum fuel = some (M', A')) ∧
      (∀ i j, i < n → j < n → (j ∈ M' i ↔ π j ∈ M (π i))) ∧ ∀ i j, i < n → j < n → A' i j = A (π i) (π j) := by
  obtain ⟨M, A, a1, a2, a3⟩ := C99_rcd_recovers_model hX hac hσ hf ht hcoef hm
  obtain ⟨M', A', b1, b2, b3⟩ := C99_rcd_recovers_model (model_reordered hπ hX) (acyclic_reordered hπ hac)
    (sigma_reordered hπ le_rfl hσ)
    (fun i j h => by
      unfold reorderedRows
      rw [show rename n π i = π i from if_pos h.lt_right, show rename n π j = π j from if_pos h.lt_left]
      exact hf _ _ ((ancestor_reordered hπ h.lt_right h.lt_left).1 h)) ht' hcoef' hm
  refine ⟨M, A, M', A', fun fuel h => ⟨a1 fuel h, b1 fuel h⟩, fun i j hi hj => ?_, fun i j hi hj => ?_⟩
  · rw [a2, b2, ancestor_reordered hπ hi hj]
  · rw [a3 _ _ (rename_lt hπ hi) (rename_lt hπ hj), b3 i j hi hj]
    unfold reorderedRows
    rw [show rename n π i = π i from if_pos hi, show rename n π j = π j from if_pos hj]

/-- C213, partial: `max_explanatory_num = 1`, hidden causes allowed.  Two variables whose proper ancestors have no hidden causes above
them have the same entry, number or NaN, in every arrangement. -/
theorem C213_entries_partial (hπ : ((List.range n).map π).Perm (List.range n)) (hX : SourceModel n m B L X)
    (hac : Acyclic (Edge n B 0)) (hσ : ∀ k, k < m → 0 < σ k)
    (hf : ∀ i j, NoHiddenAbove n m B L j → TrueAncestor n B j i → X i j ≠ 0)
    (ht : PerfectTests n m σ X t) (hcoef : PerfectCoef n m σ X coef)
    (ht' : PerfectTests n m (fun k => σ (rename n π k)) (reorderedRows n π X) t')
    (hcoef' : PerfectCoef n m (fun k => σ (rename n π k)) (reorderedRows n π X) coef')
    (h : fit t coef n 1 fuel = some (M, A)) (h' : fit t' coef' n 1 fuel' = some (M', A')) {i j : Nat} (hi : i < n) (hj : j < n)
    (hij : i ≠ j) (hci : ∀ a, TrueAncestor n B a (π i) → NoHiddenAbove n m B L a)
    (hcj : ∀ a, TrueAncestor n B a (π j) → NoHiddenAbove n m B L a) : A' i j = A (π i) (π j) := by
  have hne : π i ≠ π j := fun e => hij (rename_inj hπ hi hj e)
  have clean : ∀ i, i < n → (∀ a, TrueAncestor n B a (π i) → NoHiddenAbove n m B L a) →
      ∀ a, TrueAncestor n (reorderedRows n π B) a i → NoHiddenAbove n m (reorderedRows n π B) (reorderedRows n π L) a :=
    fun i hi hci a ha => (hidden_reordered hπ ha.lt_left).2 (hci _ ((ancestor_reordered hπ hi ha.lt_left).1 ha))
  have hX' := model_reordered hπ hX
  have hac' := acyclic_reordered hπ hac
  have hσ' := sigma_reordered hπ hX.1 hσ
  have hf' := faithful_reordered hπ hf
  have n1 := C178_nan_iff_partial hX hac hσ hf ht h (rename_lt hπ hi) (rename_lt hπ hj) hne hci hcj
  have n2 := C178_nan_iff_partial hX' hac' hσ' hf' ht' h' hi hj hij (clean i hi hci) (clean j hj hcj)
  have hsum : ∑ k ∈ Ico n m, σ (rename n π k) * (reorderedRows n π L i k * reorderedRows n π L j k) =
      ∑ k ∈ Ico n m, σ k * (L (π i) k * L (π j) k) := by
    refine sum_congr rfl fun k hk => ?_
    unfold reorderedRows
    rw [show rename n π i = π i from if_pos hi, show rename n π j = π j from if_pos hj,
      show rename n π k = k from if_neg (by have := (mem_Ico.1 hk).1; omega)]
  rw [hsum] at n2
  rcases (C178_rows_partial hX hac hσ hf ht hcoef h (rename_lt hπ hi) hci).2 _ (rename_lt hπ hj) with e | e
  · rw [e]
    exact n2.2 (n1.1 e)
  · rcases (C178_rows_partial hX' hac' hσ' hf' ht' hcoef' h' hi (clean i hi hci)).2 j hj with e' | e'
    · rw [n1.2 (n2.1 e')] at e
      cases e
    · rw [e, e']
      unfold reorderedRows
      rw [show rename n π i = π i from if_pos hi, show rename n π j = π j from if_pos hj]

end

/-! ### Concrete models -/

/-- `0 → 2`, `1 → 3` and a hidden cause (source 4) of 0 and 1. -/
def twinB : Nat → Nat → ℚ := weights [(2, 0, 2), (3, 1, -1)]
def twinL : Nat → Nat → ℚ := weights [(0, 4, 2), (1, 4, 1)]
def twinX : Nat → Nat → ℚ := rows [[1, 0, 0, 0, 2], [0, 1, 0, 0, 1], [2, 0, 1, 0, 4], [0, -1, 0, 1, -1]]

/-- The first two columns are exchanged. -/
def firstTwo (j : Nat) : Nat := if j = 0 then 1 else if j = 1 then 0 else j

theorem firstTwo_perm : ((List.range 4).map firstTwo).Perm (List.range 4) := by decide +kernel

theorem twin_model : SourceModel 4 5 twinB twinL twinX := by
  refine ⟨by omega, ?_⟩
  decide +kernel

theorem twin_anc {a b : Nat} (h : TrueAncestor 4 twinB a b) : (a = 0 ∧ b = 2) ∨ (a = 1 ∧ b = 3) := by
  have key : ∀ x y : Fin 4, twinB y x ≠ 0 → (x.1 = 0 ∧ y.1 = 2) ∨ (x.1 = 1 ∧ y.1 = 3) := by decide +kernel
  induction h with
  | single h => exact key ⟨_, h.1⟩ ⟨_, h.2.1⟩ (abs_pos.1 h.2.2)
  | tail _ h ih =>
    have := key ⟨_, h.1⟩ ⟨_, h.2.1⟩ (abs_pos.1 h.2.2)
    simp only at this
    omega

theorem twin_acyclic : Acyclic (Edge 4 twinB 0) := by
  intro i hi
  have := twin_anc hi
  omega

/-- C213 (violated for the default): right tests in both arrangements, no total effect cancels.  In one arrangement variable 3 is
recorded as an ancestor of variable 2, in the other 2 as an ancestor of 3; neither is. -/
theorem C213_default_violated : ∃ (B L X : Nat → Nat → ℚ) (σ : Nat → ℚ) (t t' : Tests) (M M' : Anc), SourceModel 4 5 B L X ∧
    Acyclic (Edge 4 B 0) ∧ (∀ k, k < 5 → 0 < σ k) ∧ (∀ i j, TrueAncestor 4 B j i → X i j ≠ 0) ∧ PerfectTests 4 5 σ X t ∧
    PerfectTests 4 5 (fun k => σ (rename 4 firstTwo k)) (reorderedRows 4 firstTwo X) t' ∧
    extractAncestors t 4 2 40 = some M ∧ extractAncestors t' 4 2 40 = some M' ∧ 3 ∈ M 2 ∧ 2 ∉ M 3 ∧ 3 ∉ M' 2 ∧ 2 ∈ M' 3 ∧
    ¬ TrueAncestor 4 B 3 2 ∧ ¬ TrueAncestor 4 B 2 3 := by
  have key : (extractAncestors (popTests 4 5 (fun _ => 1) twinX) 4 2 40).map (fun M => (M 2, M 3)) =
      some ({0, 1, 3}, {0, 1}) := by decide +kernel
  have key' : (extractAncestors (popTests 4 5 (fun _ => 1) (reorderedRows 4 firstTwo twinX)) 4 2 40).map (fun M => (M 2, M 3)) =
      some ({0, 1}, {0, 1, 2}) := by decide +kernel
  obtain ⟨M, hM, e⟩ := Option.map_eq_some_iff.1 key
  obtain ⟨M', hM', e'⟩ := Option.map_eq_some_iff.1 key'
  simp only [Prod.mk.injEq] at e e'
  refine ⟨twinB, twinL, twinX, fun _ => 1, _, _, M, M', twin_model, twin_acyclic, fun _ _ => one_pos, ?_,
    popTests_perfect (fun _ _ => one_pos) 4 twinX, popTests_perfect (fun _ _ => one_pos) 4 _, hM, hM', by rw [e.1]; simp,
    by rw [e.2]; simp, by rw [e'.1]; simp, by rw [e'.2]; simp, ?_, ?_⟩
  · intro i j h
    rcases twin_anc h with ⟨rfl, rfl⟩ | ⟨rfl, rfl⟩ <;> decide +kernel
  · intro h
    have := twin_anc h
    omega
  · intro h
    have := twin_anc h
    omega

/-- The same tests asked in the names of the rearranged data. -/
def reorderedTests (π : Nat → Nat) (t : Tests) : Tests where
  nonGauss H x := t.nonGauss (H.image π) (π x)
  corr P a Q b := t.corr (P.image π) (π a) (Q.image π) (π b)
  indep H x l := t.indep (H.image π) (π x) (l.map π)

/-- The fork `0 → 1`, `0 → 2` with a hidden cause of 1 and 2.  The only wrong answer: without regard to 0, variable 2 looks like an
effect of 1. -/
def slipTests : Tests where
  nonGauss _ _ := true
  corr _ _ _ _ := true
  indep H x l := decide (H = ∅) && (decide (l = [0] ∧ x ≠ 0) || decide (l = [1] ∧ x = 2))

/-- Apart from that answer (to `indep ∅ 2 [1]`) the tests of `slipTests` that matter for pairs are right about the fork. -/
example : ∀ x < 3, ∀ y < 3, x ≠ y → ¬ (x = 2 ∧ y = 1) →
    slipTests.indep ∅ x [y] = (popTests 3 4 (fun _ => 1) forkX).indep ∅ x [y] ∧
      slipTests.corr ∅ x ∅ y = (popTests 3 4 (fun _ => 1) forkX).corr ∅ x ∅ y := by decide +kernel

/-- C213 (violated): one wrong answer of a test that the first arrangement never asks for.  In the original arrangement the pair 1, 2
is NaN (hidden common cause); with 0 in the last column, 1 is an ancestor of 2 and the entry is a number. -/
theorem C213_one_error_violated :
    (fit slipTests (fun _ _ _ => (1 : ℚ)) 3 2 30).map (fun r => (r.1 0, r.1 1, r.1 2, r.2 2 1)) = some (∅, {0}, {0}, none) ∧
      (fit (reorderedTests (fun j => (j + 1) % 3) slipTests) (fun _ _ _ => (1 : ℚ)) 3 2 30).map
        (fun r => (r.1 2, (r.1 0).image (fun j => (j + 1) % 3), (r.1 1).image (fun j => (j + 1) % 3), r.2 1 0)) =
          some (∅, {0}, {0, 1}, some 1) := by
  decide +kernel

/-- The hypotheses of `C213_clean_partial` hold for the fork of C177 with the columns in reverse order. -/
example : ∃ (t t' : Tests) (coef coef' : Coef) (M M' : Anc) (A A' : Nat → Nat → Option ℚ),
    fit t coef 3 2 30 = some (M, A) ∧ fit t' coef' 3 2 30 = some (M', A') ∧
      (∀ j, j < 3 → (2 ∈ M' j ↔ 0 ∈ M (2 - j))) ∧ (0 ∈ M 1) := by
  obtain ⟨coef, hcoef⟩ := perfectCoef_exists (m := 4) (σ := fun _ => 1) (fun _ _ => one_pos) 3 forkX
  obtain ⟨coef', hcoef'⟩ := perfectCoef_exists (m := 4) (σ := fun _ => 1) (fun _ _ => one_pos) 3 (reorderedRows 3 (2 - ·) forkX)
  have ht := popTests_perfect (m := 4) (σ := fun _ => 1) (fun _ _ => one_pos) 3 forkX
  have ht' := popTests_perfect (m := 4) (σ := fun _ => 1) (fun _ _ => one_pos) 3 (reorderedRows 3 (2 - ·) forkX)
  obtain ⟨M, hM, _⟩ := C25_ancestors_terminate (popTests 3 4 (fun _ => 1) forkX) 3 (maxNum := 2) (by omega)
  obtain ⟨M', hM', _⟩ := C25_ancestors_terminate (popTests 3 4 (fun _ => 1) (reorderedRows 3 (2 - ·) forkX)) 3 (maxNum := 2) (by omega)
  have hfit : ∃ A, fit (popTests 3 4 (fun _ => 1) forkX) coef 3 2 30 = some (M, A) := by
    unfold fit
    rw [hM 30 (by omega)]
    exact ⟨_, rfl⟩
  have hfit' : ∃ A, fit (popTests 3 4 (fun _ => 1) (reorderedRows 3 (2 - ·) forkX)) coef' 3 2 30 = some (M', A) := by
    unfold fit
    rw [hM' 30 (by omega)]
    exact ⟨_, rfl⟩
  obtain ⟨A, hfit⟩ := hfit
  obtain ⟨A', hfit'⟩ := hfit'
  have hf : ∀ i j, NoHiddenAbove 3 4 forkB forkL j → TrueAncestor 3 forkB j i → forkX i j ≠ 0 := by
    intro i j _ h
    rw [fork_anc h]
    exact (by decide +kernel : ∀ i, i < 3 → forkX i 0 ≠ 0) i h.lt_right
  have hc := C213_clean_partial (π := (2 - ·)) (by decide +kernel) fork_model fork_acyclic (fun _ _ => one_pos) hf ht hcoef ht'
    hcoef' (Or.inr rfl) hfit hfit' (i := 2) (by omega) fork_clean
  obtain ⟨_, h2, _⟩ := C177_clean_variable_default fork_model fork_acyclic (fun _ _ => one_pos) hf ht hcoef (Or.inr rfl)
    hfit (i := 0) (by omega) fork_clean
  exact ⟨_, _, coef, coef', M, M', A, A', hfit, hfit', hc.2.1,
    (h2 1).2 (trueAncestor_of_edge (by omega) (by omega) (by decide +kernel))⟩

end Verif.Rcd
