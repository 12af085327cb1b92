import Verif.Model.ErrorData
import Verif.Props.ErrorTests
import Verif.Props.GroupColumns
import Verif.Props.RowOrderRcd

/-!
# The p-values of the error variables: units, rows and columns (C225)
-/
set_option linter.unusedSectionVars false
set_option autoImplicit false
namespace Verif.ErrorData
open Finset
open Utils (pairs)
open Mlhsicr (col)
open Pairwise (Lin Lars fitLasso rearranges_lt)
open GroupData (Requires reorderCfg C215_single_partial)

variable {N : Nat} {sf : ℝ → ℝ → ℝ → ℝ} {n : Nat} {B B' : Nat → Nat → ℝ} {X X' : Nat → Fin N → ℝ}

/-- Tables of the same tests are the same. -/
theorem table_congr (h : ∀ i j, i < j → j < n → testPair sf n B' X' i j = testPair sf n B X i j) : table sf n B' X' = table sf n B X := by
  have h' : ∀ ij ∈ pairs n, testPair sf n B' X' ij.1 ij.2 = testPair sf n B X ij.1 ij.2 := fun ij hm =>
    h _ _ (Utils.mem_pairs.1 (show (ij.1, ij.2) ∈ pairs n from hm)).1 (Utils.mem_pairs.1 (show (ij.1, ij.2) ∈ pairs n from hm)).2
  have e1 : (pairs n).any (fun ij => raises (testPair sf n B' X' ij.1 ij.2)) = (pairs n).any (fun ij => raises (testPair sf n B X ij.1 ij.2)) := by
    refine Bool.eq_iff_iff.2 ?_
    simp only [List.any_eq_true]
    exact exists_congr fun ij => and_congr_right fun hm => by rw [h' ij hm]
  have e2 : ErrorTests.fill n (some 0) (fun i j => second (testPair sf n B' X' i j)) =
      ErrorTests.fill n (some 0) (fun i j => second (testPair sf n B X i j)) := by
    unfold ErrorTests.fill
    refine List.foldl_ext _ _ _ fun P ij hm => ?_
    beta_reduce
    rw [h' ij hm]
  unfold table
  rw [e1, e2]

/-- Which calls raise: with two or more variables and at most three rows. -/
theorem table_outcome (sf : ℝ → ℝ → ℝ → ℝ) (n : Nat) (B : Nat → Nat → ℝ) (X : Nat → Fin N → ℝ) :
    (2 ≤ n ∧ N ≤ 3 → table sf n B X = .error .zeroDivision) ∧
    (¬ (2 ≤ n ∧ N ≤ 3) → ∃ P, table sf n B X = .ok P ∧
      ErrorTests.PairTable n (some 0) P fun i j => second (testPair sf n B X i j)) := by
  have hr : ∀ i j, raises (testPair sf n B X i j) = decide (N ≤ 3) := fun i j => by
    unfold testPair Hsic.test Hsic.testWith
    by_cases h : N ≤ 3
    · rw [if_pos h]; simp [raises, h]
    · rw [if_neg h]
      cases Hsic.kernelWidth (col (errorCol n B X i)) <;> cases Hsic.kernelWidth (col (errorCol n B X j)) <;> simp [raises, h]
  unfold table
  simp only [hr]
  refine ⟨fun ⟨h2, h3⟩ => if_pos ?_, fun h => ?_⟩
  · rw [List.any_eq_true]
    exact ⟨(0, 1), Utils.mem_pairs.2 ⟨by omega, by omega⟩, by simpa using h3⟩
  · refine ⟨_, if_neg ?_, ErrorTests.fill_table n _ _⟩
    rw [List.any_eq_true]
    rintro ⟨ij, hm, h3⟩
    have := Utils.mem_pairs.1 (show (ij.1, ij.2) ∈ pairs n from hm)
    exact h ⟨by omega, by simpa using h3⟩

/-! ### Units and origins -/

/-- **C225, units.** Variables in other units with other origins, and the matrix converted with them, have the same table of p-values. -/
theorem C225_units (sf : ℝ → ℝ → ℝ → ℝ) (X : Nat → Fin N → ℝ) {c a : Nat → ℝ} (hc : ∀ j, j < n → c j ≠ 0)
    (hB : ∀ i j, i < n → j < n → B' i j = B i j * (c i / c j)) :
    table sf n B' (fun j r => c j * X j r + a j) = table sf n B X := by
  have key : ∀ i, i < n → col (errorCol n B' (fun j r => c j * X j r + a j) i) =
      fun r k => c i * col (errorCol n B X i) r k + (a i - ∑ j ∈ range n, B i j * (c i / c j) * a j) := by
    intro i hi
    funext r k
    show c i * X i r + a i - ∑ j ∈ range n, B' i j * (c j * X j r + a j) = c i * (X i r - ∑ j ∈ range n, B i j * X j r) + _
    have : ∑ j ∈ range n, B' i j * (c j * X j r + a j) =
        c i * (∑ j ∈ range n, B i j * X j r) + ∑ j ∈ range n, B i j * (c i / c j) * a j := by
      rw [mul_sum, ← sum_add_distrib]
      refine sum_congr rfl fun j hj => ?_
      have h0 := hc j (mem_range.1 hj)
      rw [hB i j hi (mem_range.1 hj)]
      field_simp
    rw [this]
    ring
  refine table_congr fun i j hij hj => ?_
  unfold testPair
  rw [key i (by omega), key j hj]
  exact Hsic.C114_hsic_units sf _ _ (c i) (c j) _ _ (hc i (by omega)) (hc j hj)

/-- **C225, units after fitting.** DirectLiNGAM fitted to the data in other units with other origins reports the same table of p-values. -/
theorem C225_direct_units (cfg : Direct.Config) {lin : Lin N} (hlin : RightRegression lin) (lars : Lars N) (sf : ℝ → ℝ → ℝ → ℝ) (hid : Identified n X)
    {c a : Nat → ℝ} (hc : ∀ j, j < n → 0 < c j) {o : List Nat} (h : fitLasso cfg lin lars n X = .ok (o, B)) :
    ∃ B', fitLasso cfg lin lars n (fun j r => c j * X j r + a j) = .ok (o, B') ∧
      table sf n B' (fun j r => c j * X j r + a j) = table sf n B X := by
  obtain ⟨B', h1, h2⟩ := (Pairwise.C197_fit cfg hlin lars hid hc).2 o B h
  exact ⟨B', h1, C225_units sf X (fun j hj => (hc j hj).ne') fun i j _ _ => h2 i j⟩

/-! ### The order of the rows -/

/-- **C225, rows.** The rows may be put in any order that keeps the first 100 among themselves.  Missing: other orders, see
`C225_rows_violated`. -/
theorem C225_rows_partial (sf : ℝ → ℝ → ℝ → ℝ) (n : Nat) (B : Nat → Nat → ℝ) (X : Nat → Fin N → ℝ) (σ : Equiv.Perm (Fin N))
    (hσ : ∀ i : Fin N, i.val < 100 ↔ (σ i).val < 100) : table sf n B (fun j r => X j (σ r)) = table sf n B X :=
  table_congr fun i j _ _ => Hsic.C115_hsic_row_order_partial sf (col (errorCol n B X i)) (col (errorCol n B X j)) σ hσ

/-- **C225, rows after fitting.** With at most 100 rows DirectLiNGAM fitted to the rows in another order reports the same table. -/
theorem C225_direct_rows_partial (cfg : Direct.Config) {lin : Lin N} (hlin : RightRegression lin) {lars : Lars N}
    (hlars : ∀ cols, IndependentCols cols → ∀ d y, IgnoresRows lars (multiplied d cols) y) (sf : ℝ → ℝ → ℝ → ℝ) (hid : Identified n X)
    (hN : N ≤ 100) (σ : Equiv.Perm (Fin N)) {o : List Nat} (h : fitLasso cfg lin lars n X = .ok (o, B)) :
    fitLasso cfg lin lars n (fun j r => X j (σ r)) = .ok (o, B) ∧ table sf n B (fun j r => X j (σ r)) = table sf n B X :=
  ⟨by rw [Pairwise.C222_direct cfg hlin hlars hid σ, h], C225_rows_partial sf n B X σ fun i =>
    ⟨fun _ => by have := (σ i).isLt; omega, fun _ => by have := i.isLt; omega⟩⟩

/-- **C225, negation for more than 100 rows.** For the same matrix and the same 101 rows a p-value is NaN or a number, depending on which
row comes last. -/
theorem C225_rows_violated (sf : ℝ → ℝ → ℝ → ℝ) : ∃ P P', table sf 2 (fun _ _ => 0) RcdData.late = .ok P ∧
    table sf 2 (fun _ _ => 0) (fun j r => RcdData.late j (RcdData.endsSwapped r)) = .ok P' ∧ P 0 1 = none ∧ ∃ p, P' 0 1 = some p := by
  have he : ∀ (Y : Nat → Fin 101 → ℝ) i, errorCol 2 (fun _ _ => 0) Y i = Y i := fun Y i => by
    funext r
    simp [errorCol]
  obtain ⟨P, h1, -, -, h2⟩ := (table_outcome sf 2 (fun _ _ => 0) RcdData.late).2 (by omega)
  obtain ⟨P', h3, -, -, h4⟩ := (table_outcome sf 2 (fun _ _ => 0) (fun j r => RcdData.late j (RcdData.endsSwapped r))).2 (by omega)
  refine ⟨P, P', h1, h3, ?_, ?_⟩
  · rw [h2 0 1 (by omega) (by omega)]
    unfold testPair
    beta_reduce
    rw [he, he, (Hsic.C117_hsic_nan (by norm_num) sf _ _).2 (Or.inl fun i j hi hj => ?_)]
    · rfl
    · funext k
      show RcdData.late 0 i = RcdData.late 0 j
      have hi : i ≠ 100 := fun h => by rw [h] at hi; exact absurd hi (by decide)
      have hj : j ≠ 100 := fun h => by rw [h] at hj; exact absurd hj (by decide)
      simp only [RcdData.late]
      rw [if_neg hi, if_neg hj]
  · rw [h4 0 1 (by omega) (by omega)]
    unfold testPair
    beta_reduce
    rw [he, he]
    have s0 : Hsic.Spread (0 : Fin 101) 1 (fun r => RcdData.late 0 (RcdData.endsSwapped r)) := by
      have := (RcdData.spread_of (x := 1) (y := 0) (by decide) 0 (u := 0) (v := 1) (by norm_num) (fun _ => by norm_num) (by decide)).symm
      simp only [zero_add, ite_self] at this
      simpa only [RcdData.late, RcdData.swapped_last] using this
    have s1 : Hsic.Spread (0 : Fin 101) 1 (fun r => RcdData.late 1 (RcdData.endsSwapped r)) := by
      have := RcdData.spread_of (x := 0) (y := 1) (by decide) 0 (u := 1) (v := 1) (by norm_num) (fun _ => by norm_num) (by decide)
      simp only [zero_add] at this
      simpa only [RcdData.late, RcdData.swapped_last, RcdData.swapped_second] using this
    obtain ⟨s, u, v, t, ht⟩ := Hsic.test_spread (by norm_num) sf s0 s1 (i := 2) (j := 3) (by decide) (by decide) (by decide) (by decide) (by decide)
    exact ⟨sf u v t, by rw [ht]; rfl⟩

/-! ### The order of the columns -/

/-- **C225, columns.** The columns of the data and of the matrix may be put in any order `π`: the table raises in the same cases and has the
same entries in that order. -/
theorem C225_columns (sf : ℝ → ℝ → ℝ → ℝ) (X : Nat → Fin N → ℝ) {π : Nat → Nat} (hπ : Rearranges n π)
    (hB : ∀ i j, i < n → j < n → B' i j = B (π i) (π j)) :
    (∀ e, table sf n B X = .error e → table sf n B' (fun j => X (π j)) = .error e) ∧
    ∀ P, table sf n B X = .ok P → ∃ P', table sf n B' (fun j => X (π j)) = .ok P' ∧ ∀ i j, i < n → j < n → P' i j = P (π i) (π j) := by
  have hlt : ∀ i, i < n → π i < n := fun i hi => rearranges_lt hπ hi
  have hinj : ∀ i j, i < n → j < n → π i = π j → i = j := fun i j hi hj h => by
    have hnd : ((List.range n).map π).Nodup := hπ.nodup_iff.2 List.nodup_range
    exact List.inj_on_of_nodup_map hnd (List.mem_range.2 hi) (List.mem_range.2 hj) h
  have key : ∀ i, i < n → errorCol n B' (fun j => X (π j)) i = errorCol n B X (π i) := by
    intro i hi
    funext r
    unfold errorCol
    congr 1
    have : ∑ j ∈ range n, B (π i) j * X j r = ∑ j ∈ range n, B (π i) (π j) * X (π j) r := by
      refine (sum_bij (fun j _ => π j) (fun j hj => mem_range.2 (hlt j (mem_range.1 hj))) (fun a ha b hb h =>
        hinj a b (mem_range.1 ha) (mem_range.1 hb) h) (fun b hb => ?_) fun _ _ => rfl).symm
      have : b ∈ (List.range n).map π := hπ.mem_iff.2 (List.mem_range.2 (mem_range.1 hb))
      obtain ⟨j, hj, rfl⟩ := List.mem_map.1 this
      exact ⟨j, mem_range.2 (List.mem_range.1 hj), rfl⟩
    rw [this]
    exact sum_congr rfl fun j hj => by rw [hB i j hi (mem_range.1 hj)]
  obtain ⟨h1, h2⟩ := table_outcome sf n B X
  obtain ⟨h1', h2'⟩ := table_outcome sf n B' (fun j => X (π j))
  by_cases hc : 2 ≤ n ∧ N ≤ 3
  · rw [h1 hc, h1' hc]
    exact ⟨fun e h => h, fun P h => by cases h⟩
  · obtain ⟨P, hP, hs, hd, he⟩ := h2 hc
    obtain ⟨P', hP', hs', hd', he'⟩ := h2' hc
    rw [hP]
    refine ⟨fun e h => (by cases h), fun Q hQ => ⟨P', hP', ?_⟩⟩
    cases hQ
    have hpair : ∀ i j, i < j → j < n → P' i j = P (π i) (π j) := by
      intro i j hij hj
      rw [he' i j hij hj]
      unfold testPair
      beta_reduce
      rw [key i (by omega), key j hj]
      rcases lt_trichotomy (π i) (π j) with h | h | h
      · rw [he _ _ h (hlt j hj)]; rfl
      · exact absurd (hinj i j (by omega) hj h) (by omega)
      · rw [hs, he _ _ h (hlt i (by omega)), Hsic.C113_hsic_symmetric]; rfl
    intro i j hi hj
    rcases lt_trichotomy i j with h | h | h
    · exact hpair i j h hj
    · subst h; rw [hd, hd']
    · rw [hs', hpair j i h hi, hs]

/-- **C225, columns after fitting.** Where the causal order is determined by the data, DirectLiNGAM fitted to the columns in another order reports
the same p-values for the same variables.  Missing: ties, see `C215_violated`. -/
theorem C225_direct_columns_partial {cfg : Direct.Config} (hard : cfg.pk ≠ none → cfg.soft = false) (hN : N ≠ 0) (lin : Lin N) (lars : Lars N)
    (sf : ℝ → ℝ → ℝ → ℝ) {π : Nat → Nat} (hπ : Rearranges n π) {l : List Nat} (hid : Identified n X)
    (hj : JointOrder (Requires cfg n) [⟨N, X⟩] (List.range n) l) {o : List Nat} (h : fitLasso cfg lin lars n X = .ok (o, B))
    {P : Nat → Nat → Option ℝ} (hP : table sf n B X = .ok P) :
    ∃ o' B' P', fitLasso (reorderCfg π cfg) lin lars n (fun j => X (π j)) = .ok (o', B') ∧ o'.map π = o ∧
      table sf n B' (fun j => X (π j)) = .ok P' ∧ ∀ i j, i < n → j < n → P' i j = P (π i) (π j) := by
  obtain ⟨o', B', h1, h2, h3⟩ := (C215_single_partial hard hN lin lars hπ hid hj).2 o B h
  obtain ⟨P', h4, h5⟩ := (C225_columns sf X hπ h3).2 P hP
  exact ⟨o', B', P', h1, h2, h4, h5⟩

/-! ### Examples -/

theorem witness_fit (lin : ∀ N, Lin N) (lars : ∀ N, Lars N) : ∃ o B, fitLasso { } (lin 4) (lars 4) 2 Pairwise.witnessX = .ok (o, B) := by
  obtain ⟨o, Bs, hf, -, -⟩ := GroupData.C204_defined (cfg := { }) rfl lin lars 2 (ds := [⟨_, Pairwise.witnessX⟩]) (by simp)
  rw [GroupData.fit_single { } lin lars 2 (by norm_num) Pairwise.witnessX] at hf
  cases h : fitLasso { } (lin 4) (lars 4) 2 Pairwise.witnessX with
  | error e => rw [h] at hf; cases hf
  | ok p => exact ⟨p.1, p.2, rfl⟩

theorem exists_all : ∃ (lin : ∀ N, Lin N) (lars : ∀ N, Lars N), ∀ N, RightRegression (lin N) ∧
    ∀ cols, IndependentCols cols → ∀ d y, IgnoresRows (lars N) (multiplied d cols) y := by
  choose lin lars h using fun N => Pairwise.exists_rows N
  exact ⟨lin, lars, fun N => ⟨(h N).1, (h N).2.2⟩⟩

/-- The hypotheses of the theorems on units and on rows are met: the same table in other units, and for the rows in reverse order. -/
example (sf : ℝ → ℝ → ℝ → ℝ) : ∃ (lin : ∀ N, Lin N) (lars : ∀ N, Lars N) (o : List Nat) (B B' : Nat → Nat → ℝ) (P : Nat → Nat → Option ℝ),
    fitLasso { } (lin 4) (lars 4) 2 Pairwise.witnessX = .ok (o, B) ∧ table sf 2 B Pairwise.witnessX = .ok P ∧
    fitLasso { } (lin 4) (lars 4) 2 (fun j r => (j + 2) * Pairwise.witnessX j r + 7) = .ok (o, B') ∧
    table sf 2 B' (fun j r => (j + 2) * Pairwise.witnessX j r + 7) = .ok P ∧
    table sf 2 B (fun j r => Pairwise.witnessX j (Fin.revPerm r)) = .ok P := by
  obtain ⟨lin, lars, h⟩ := exists_all
  obtain ⟨o, B, hf⟩ := witness_fit lin lars
  obtain ⟨P, hP, -⟩ := (table_outcome sf 2 B Pairwise.witnessX).2 (by omega)
  obtain ⟨B', h1, h2⟩ := C225_direct_units { } (h 4).1 (lars 4) sf Pairwise.witness_identified (c := fun j => (j : ℝ) + 2) (a := fun _ => 7)
    (fun j _ => by positivity) hf
  have h3 := (C225_direct_rows_partial { } (h 4).1 (h 4).2 sf Pairwise.witness_identified (by norm_num) Fin.revPerm hf).2
  exact ⟨lin, lars, o, B, B', P, hf, hP, h1, h2.trans hP, h3.trans hP⟩

/-- The hypotheses of the theorem on columns are met. -/
example (sf : ℝ → ℝ → ℝ → ℝ) (lin : ∀ N, Lin N) (lars : ∀ N, Lars N) : ∃ o B P o' B' P',
    fitLasso { } (lin 4) (lars 4) 2 Pairwise.witnessX = .ok (o, B) ∧ table sf 2 B Pairwise.witnessX = .ok P ∧
    fitLasso { } (lin 4) (lars 4) 2 (fun j => Pairwise.witnessX (1 - j)) = .ok (o', B') ∧
    table sf 2 B' (fun j => Pairwise.witnessX (1 - j)) = .ok P' ∧ P' 0 1 = P 1 0 := by
  obtain ⟨o, B, hf⟩ := witness_fit lin lars
  obtain ⟨P, hP, -⟩ := (table_outcome sf 2 B Pairwise.witnessX).2 (by omega)
  have hreq : Requires { } 2 = fun _ _ => False := by
    funext a b
    simp [Requires]
  have hj : JointOrder (Requires { } 2) [⟨4, Pairwise.witnessX⟩] (List.range 2) [1, 0] := by
    rw [hreq]
    exact GroupData.joint_of_copies (k := 1) (by norm_num) Pairwise.witness_order List.nodup_range (Pairwise.indep_range Pairwise.witness_identified)
  obtain ⟨o', B', P', h1, -, h2, h3⟩ := C225_direct_columns_partial (cfg := { }) (fun h => absurd rfl h) (by norm_num) (lin 4) (lars 4) sf
    (π := (1 - ·)) (by unfold Rearranges; decide) Pairwise.witness_identified hj hf hP
  exact ⟨o, B, P, o', B', P', hf, hP, h1, h2, h3 0 1 (by norm_num) (by norm_num)⟩

end Verif.ErrorData
