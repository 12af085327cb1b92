import Verif.Props.RowOrder

/-!
# The order of the rows: RCD with more than 100 rows (C222)
-/
set_option linter.unusedSectionVars false
set_option autoImplicit false
namespace Verif.Hsic
open Finset

variable {N : Nat}

theorem median_le {s : Multiset ℝ} {c : ℝ} (hs : ∀ x ∈ s, x ≤ c) {m : ℝ} (h : median s = some m) : m ≤ c := by
  unfold median at h
  simp only at h
  split at h
  · cases h
  · rename_i hl
    cases h
    have hg : ∀ i, i < (s.sort (· ≤ ·)).length → (s.sort (· ≤ ·)).getD i 0 ≤ c := by
      intro i hi
      rw [List.getD_eq_getElem?_getD, List.getElem?_eq_getElem hi, Option.getD_some]
      exact hs _ ((Multiset.mem_sort (r := (· ≤ ·))).1 (List.getElem_mem hi))
    have h1 := hg (((s.sort (· ≤ ·)).length - 1) / 2) (by omega)
    have h2 := hg ((s.sort (· ≤ ·)).length / 2) (by omega)
    linarith

theorem dist_col (a : Fin N → ℝ) (i j : Fin N) : dist (Mlhsicr.col a) i j = (a i - a j) ^ 2 := by
  rw [dist_eq]
  simp [Mlhsicr.col]

theorem width_le {a : Fin N → ℝ} {c w : ℝ} (h : ∀ i j : Fin N, i.val < 100 → j.val < 100 → (a i - a j) ^ 2 ≤ c)
    (hw : kernelWidth (Mlhsicr.col a) = some w) : 2 * w ^ 2 ≤ c := by
  have hpos := kernelWidth_pos hw
  unfold kernelWidth at hw
  rw [Option.map_eq_some_iff] at hw
  obtain ⟨m, hm, rfl⟩ := hw
  have hmc : m ≤ c := by
    refine median_le (fun x hx => ?_) hm
    unfold positiveDists at hx
    rw [Multiset.mem_map] at hx
    obtain ⟨p, _, rfl⟩ := hx
    have : dist (firstRows (Mlhsicr.col a)) p.1 p.2 =
        dist (Mlhsicr.col a) (Fin.castLE (Nat.min_le_left N 100) p.1) (Fin.castLE (Nat.min_le_left N 100) p.2) := rfl
    rw [this, dist_col]
    exact h _ _ (lt_of_lt_of_le p.1.isLt (Nat.min_le_right _ _)) (lt_of_lt_of_le p.2.isLt (Nat.min_le_right _ _))
  have hm0 : 0 ≤ 1 / 2 * m := by
    by_contra hc
    rw [Real.sqrt_eq_zero_of_nonpos (by linarith)] at hpos
    exact lt_irrefl _ hpos
  rw [Real.sq_sqrt hm0]
  linarith

theorem rbf_col (a : Fin N → ℝ) (w : ℝ) (i j : Fin N) : rbf (Mlhsicr.col a) w i j = Real.exp (-((a i - a j) ^ 2) / 2 / w ^ 2) := by
  unfold rbf
  rw [dist_col]

/-- All values but those in the rows `x` and `y` are the same, and one of these two is farther away than any two of the first 100
values are from each other. -/
structure Spread (x y : Fin N) (a : Fin N → ℝ) : Prop where
  ne : x ≠ y
  rest : ∀ i j, i ≠ x → i ≠ y → j ≠ x → j ≠ y → a i = a j
  varies : ∃ i j : Fin N, i.val < 100 ∧ j.val < 100 ∧ a i ≠ a j
  far : ∃ c, (∀ i j : Fin N, i.val < 100 → j.val < 100 → (a i - a j) ^ 2 ≤ c) ∧
    ((∀ i, i ≠ x → i ≠ y → c ≤ (a i - a x) ^ 2) ∨ ∀ i, i ≠ x → i ≠ y → c ≤ (a i - a y) ^ 2)

theorem Spread.width {x y : Fin N} {a : Fin N → ℝ} (h : Spread x y a) : ∃ w, kernelWidth (Mlhsicr.col a) = some w := by
  cases hw : kernelWidth (Mlhsicr.col a) with
  | some w => exact ⟨w, rfl⟩
  | none =>
    obtain ⟨i, j, hi, hj, hij⟩ := h.varies
    exact absurd (congrFun ((kernelWidth_eq_none _).1 hw i j hi hj) 0) hij

theorem Spread.symm {x y : Fin N} {a : Fin N → ℝ} (h : Spread x y a) : Spread y x a := by
  obtain ⟨c, h1, h2⟩ := h.far
  exact ⟨h.ne.symm, fun i j hy hx hy' hx' => h.rest i j hx hy hx' hy', h.varies, c, h1, h2.elim (fun h => Or.inr fun i hy hx => h i hx hy)
    fun h => Or.inl fun i hy hx => h i hx hy⟩

theorem exp_half : Real.exp (-1) < 1 / 2 := by
  rw [Real.exp_neg]
  have := Real.exp_one_gt_d9
  rw [inv_eq_one_div]
  exact one_div_lt_one_div_of_lt (by norm_num) (by linarith)

theorem Spread.centred_pos {x y : Fin N} {a : Fin N → ℝ} (h : Spread x y a) {w : ℝ} (hw : kernelWidth (Mlhsicr.col a) = some w) {i j : Fin N}
    (hix : i ≠ x) (hiy : i ≠ y) (hjx : j ≠ x) (hjy : j ≠ y) : 0 < centred (rbf (Mlhsicr.col a) w) i j := by
  have hN : (0 : ℝ) < N := by
    have : 0 < N := lt_of_le_of_lt (Nat.zero_le _) i.isLt
    exact_mod_cast this
  have hw0 := kernelWidth_pos hw
  set K := rbf (Mlhsicr.col a) w with hK
  have hKe : ∀ i j, K i j = Real.exp (-((a i - a j) ^ 2) / 2 / w ^ 2) := rbf_col a w
  have hsym : ∀ i j, K i j = K j i := fun i j => by rw [hKe, hKe, show (a i - a j) ^ 2 = (a j - a i) ^ 2 by ring]
  have hpos : ∀ i j, 0 < K i j := fun i j => by rw [hKe]; exact Real.exp_pos _
  have hle : ∀ i j, K i j ≤ 1 := fun i j => by
    rw [hKe, Real.exp_le_one_iff]
    refine div_nonpos_of_nonpos_of_nonneg (div_nonpos_of_nonpos_of_nonneg ?_ (by norm_num)) (sq_nonneg w)
    have := sq_nonneg (a i - a j)
    linarith
  have hone : ∀ b, b ≠ x → b ≠ y → K i b = 1 := fun b hbx hby => by
    rw [hKe, h.rest i b hix hiy hbx hby]
    simp
  have hrow : ∀ b, b ≠ x → b ≠ y → ∀ d, K b d = K i d := fun b hbx hby d => by
    rw [hKe, hKe, h.rest b i hbx hby hix hiy]
  have hs : K i x + K i y < 3 / 2 := by
    obtain ⟨c, hc, hfar⟩ := h.far
    have h2 := width_le hc hw
    have hq : ∀ z, c ≤ (a i - a z) ^ 2 → K i z < 1 / 2 := fun z hz => by
      refine lt_of_le_of_lt ?_ exp_half
      rw [hKe, Real.exp_le_exp, div_le_iff₀ (by positivity)]
      linarith
    rcases hfar with hf | hf
    · have := hq x (hf i hix hiy)
      have := hle i y
      linarith
    · have := hq y (hf i hix hiy)
      have := hle i x
      linarith
  have sum3 : ∀ (u v t : ℝ), ∑ b : Fin N, (u + (if b = x then v else 0) + if b = y then t else 0) = N * u + v + t := fun u v t => by
    rw [sum_add_distrib, sum_add_distrib]
    simp
  have hr : ∀ b, b ≠ x → b ≠ y → ∑ d, K b d = N - 2 + (K i x + K i y) := fun b hbx hby => by
    have : ∀ d, K b d = 1 + (if d = x then K i x - 1 else 0) + if d = y then K i y - 1 else 0 := fun d => by
      rw [hrow b hbx hby]
      by_cases hdx : d = x
      · subst hdx; rw [if_pos rfl, if_neg h.ne]; ring
      · by_cases hdy : d = y
        · subst hdy; rw [if_neg hdx, if_pos rfl]; ring
        · rw [if_neg hdx, if_neg hdy, hone d hdx hdy]; ring
    simp only [this]
    rw [sum3]
    ring
  have hself : ∀ z, K z z = 1 := fun z => by rw [hKe]; simp
  have hcol : ∀ z d, d ≠ x → d ≠ y → K z d = K i z := fun z d hdx hdy => by rw [hsym z d, hrow d hdx hdy z]
  have hx : ∑ d, K x d = N * K i x + (1 - K i x) + (K x y - K i x) := by
    have : ∀ d, K x d = K i x + (if d = x then 1 - K i x else 0) + if d = y then K x y - K i x else 0 := fun d => by
      by_cases hdx : d = x
      · subst hdx; rw [if_pos rfl, if_neg h.ne, hself]; ring
      · by_cases hdy : d = y
        · subst hdy; rw [if_neg hdx, if_pos rfl]; ring
        · rw [if_neg hdx, if_neg hdy, hcol x d hdx hdy]; ring
    rw [sum_congr rfl fun d _ => this d, sum3]
  have hy : ∑ d, K y d = N * K i y + (K x y - K i y) + (1 - K i y) := by
    have : ∀ d, K y d = K i y + (if d = x then K x y - K i y else 0) + if d = y then 1 - K i y else 0 := fun d => by
      by_cases hdx : d = x
      · subst hdx; rw [if_pos rfl, if_neg h.ne, hsym]; ring
      · by_cases hdy : d = y
        · subst hdy; rw [if_neg hdx, if_pos rfl, hself]; ring
        · rw [if_neg hdx, if_neg hdy, hcol y d hdx hdy]; ring
    rw [sum_congr rfl fun d _ => this d, sum3]
  have htot : ∑ b, ∑ d, K b d = N * (N - 2 + (K i x + K i y)) + (∑ d, K x d - (N - 2 + (K i x + K i y))) + (∑ d, K y d - (N - 2 + (K i x + K i y))) := by
    have : ∀ b, ∑ d, K b d = (N - 2 + (K i x + K i y)) + (if b = x then ∑ d, K x d - (N - 2 + (K i x + K i y)) else 0) +
        if b = y then ∑ d, K y d - (N - 2 + (K i x + K i y)) else 0 := fun b => by
      by_cases hbx : b = x
      · subst hbx; rw [if_pos rfl, if_neg h.ne]; ring
      · by_cases hby : b = y
        · subst hby; rw [if_neg hbx, if_pos rfl]; ring
        · rw [if_neg hbx, if_neg hby, hr b hbx hby]; ring
    rw [sum_congr rfl fun b _ => this b, sum3]
  have hcolj : ∑ b, K b j = N - 2 + (K i x + K i y) := by
    rw [sum_congr rfl fun b _ => hsym b j]
    exact hr j hjx hjy
  unfold centred
  rw [hcolj, hr i hix hiy, htot, hx, hy, hone j hjx hjy]
  have hq3 := hpos x y
  have e : 1 - (↑N - 2 + (K i x + K i y) + (↑N - 2 + (K i x + K i y))) / (N : ℝ) +
      (↑N * (↑N - 2 + (K i x + K i y)) + (↑N * K i x + (1 - K i x) + (K x y - K i x) - (↑N - 2 + (K i x + K i y))) +
        (↑N * K i y + (K x y - K i y) + (1 - K i y) - (↑N - 2 + (K i x + K i y)))) / (N : ℝ) ^ 2 =
      (6 - 4 * (K i x + K i y) + 2 * K x y) / (N : ℝ) ^ 2 := by
    field_simp
    ring
  rw [e]
  exact div_pos (by linarith) (by positivity)

theorem nullVar_pos (hn : 5 < N) {K L : Fin N → Fin N → ℝ} {i j : Fin N} (hij : i ≠ j) (hK : K i j ≠ 0) (hL : L i j ≠ 0) : nullVar K L ≠ 0 := by
  have hn' : (6 : ℝ) ≤ N := by exact_mod_cast hn
  have h1 : (0 : ℝ) < N := by linarith
  have h2 : (0 : ℝ) < (N : ℝ) - 1 := by linarith
  have h3 : (0 : ℝ) < (N : ℝ) - 2 := by linarith
  have h4 : (0 : ℝ) < (N : ℝ) - 3 := by linarith
  have h5 : (0 : ℝ) < (N : ℝ) - 4 := by linarith
  have h6 : (0 : ℝ) < (N : ℝ) - 5 := by linarith
  unfold nullVar
  refine ne_of_gt (mul_pos (by positivity) (mul_pos (by positivity) ?_))
  rw [sub_pos]
  refine Finset.sum_lt_sum (fun a _ => ?_) ⟨i, mem_univ i, ?_⟩
  · exact Finset.single_le_sum (f := fun j => (1 / 6 * K a j * L a j) ^ 2) (fun j _ => sq_nonneg _) (mem_univ a)
  · refine Finset.single_lt_sum (f := fun j => (1 / 6 * K i j * L i j) ^ 2) hij.symm (mem_univ i) (mem_univ j) ?_ (fun k _ _ => sq_nonneg _)
    positivity

/-- For two such variables a p-value is computed. -/
theorem test_spread (hn : 5 < N) (sf : ℝ → ℝ → ℝ → ℝ) {x y : Fin N} {a b : Fin N → ℝ} (ha : Spread x y a) (hb : Spread x y b) {i j : Fin N}
    (hij : i ≠ j) (hix : i ≠ x) (hiy : i ≠ y) (hjx : j ≠ x) (hjy : j ≠ y) :
    ∃ s u v t, test sf (Mlhsicr.col a) (Mlhsicr.col b) = .ok (some s, some (sf u v t)) := by
  obtain ⟨wa, hwa⟩ := ha.width
  obtain ⟨wb, hwb⟩ := hb.width
  have hv := nullVar_pos hn hij (ha.centred_pos hwa hix hiy hjx hjy).ne' (hb.centred_pos hwb hix hiy hjx hjy).ne'
  have hm : nullMean (rbf (Mlhsicr.col a) wa) (rbf (Mlhsicr.col b) wb) ≠ 0 := by
    obtain ⟨_, h1⟩ := offMean_rbf (Mlhsicr.col a) (kernelWidth_pos hwa) (by omega) (exists_ne_of_width hwa)
    obtain ⟨_, h2⟩ := offMean_rbf (Mlhsicr.col b) (kernelWidth_pos hwb) (by omega) (exists_ne_of_width hwb)
    have hN : (0 : ℝ) < N := by
      have : 0 < N := by omega
      exact_mod_cast this
    unfold nullMean
    have : 1 + offMean (rbf (Mlhsicr.col a) wa) * offMean (rbf (Mlhsicr.col b) wb) - offMean (rbf (Mlhsicr.col a) wa) - offMean (rbf (Mlhsicr.col b) wb) =
        (1 - offMean (rbf (Mlhsicr.col a) wa)) * (1 - offMean (rbf (Mlhsicr.col b) wb)) := by ring
    rw [this]
    exact ne_of_gt (mul_pos (by positivity) (mul_pos (by linarith) (by linarith)))
  unfold test testWith
  rw [if_neg (by omega), hwa, hwb]
  simp only
  rw [if_neg (not_or.2 ⟨hv, hm⟩)]
  exact ⟨_, _, _, _, rfl⟩

end Verif.Hsic

namespace Verif.Rcd

/-- Two variables that are not Gaussian and are correlated. -/
theorem ancestors_two {t : Tests} (h0 : t.nonGauss ∅ 0 = true) (h1 : t.nonGauss ∅ 1 = true) (hc : t.corr ∅ 0 ∅ 1 = true) :
    (t.indep ∅ 0 [1] = true → t.indep ∅ 1 [0] = false → ∃ M, extractAncestors t 2 2 4 = some M ∧ 1 ∈ M 0) ∧
    (t.indep ∅ 1 [0] = true → ∃ M, extractAncestors t 2 2 4 = some M ∧ 1 ∉ M 0) := by
  have hcm : combos 2 [0, 1] = [[0, 1]] := by decide
  have hcm3 : combos 3 [0, 1] = [] := by decide
  have hr : List.range 2 = [0, 1] := rfl
  constructor
  · intro a b
    refine ⟨addAncestors (fun _ => ∅) 0 [1], ?_, by simp [addAncestors]⟩
    simp [extractAncestors, loop, pass, hr, hcm, hcm3, body, commonAncestors, St.lookup, allCorrelated, sinkSet, others, existsAncestor, applySink,
      addAncestors, h0, h1, hc, a, b]
  · intro b
    cases a : t.indep ∅ 0 [1] with
    | true =>
      refine ⟨fun _ => ∅, ?_, by simp⟩
      simp [extractAncestors, loop, pass, hr, hcm, hcm3, body, commonAncestors, St.lookup, allCorrelated, sinkSet, others, existsAncestor, applySink,
        h0, h1, hc, a, b]
    | false =>
      refine ⟨addAncestors (fun _ => ∅) 1 [0], ?_, by simp [addAncestors]⟩
      simp [extractAncestors, loop, pass, hr, hcm, hcm3, body, commonAncestors, St.lookup, allCorrelated, sinkSet, others, existsAncestor, applySink,
        addAncestors, h0, h1, hc, a, b]

end Verif.Rcd

namespace Verif.RcdData
open Finset
open Verif.ParceData (resid_rows mean_rows)

/-- 101 rows: the first variable is 1 in the last row only, the second one in the second and the last row. -/
def late : Nat → Fin 101 → ℝ
  | 0, r => if r = 100 then 1 else 0
  | _ + 1, r => (if r = 100 then 1 else 0) + if r = 1 then 1 else 0

theorem sum_late (u v t : ℝ) : ∑ b : Fin 101, (u + (if b = 100 then v else 0) + if b = 1 then t else 0) = 101 * u + v + t := by
  rw [sum_add_distrib, sum_add_distrib]
  simp

theorem resid_late_zero {L : Lib 101} (hL : OlsRight L) :
    resid L late 0 [1] = fun r => (if r = 100 then 1 / 2 else 0) + if r = 1 then -(1 / 2) else 0 := by
  obtain ⟨h0, h1⟩ := residOf_normal (hL _ (cols late [1]) (late 0))
  unfold resid
  set c := L.ols [1].length (cols late [1]) (late 0) with hc
  set k := mean (late 0) - c 0 * mean (late 1) with hk
  have hr : ∀ r, residOf c (cols late [1]) (late 0) r = -k + (if r = 100 then 1 - c 0 else 0) + if r = 1 then -c 0 else 0 := fun r => by
    have : residOf c (cols late [1]) (late 0) r = late 0 r - (c 0 * late 1 r + k) := by
      show late 0 r - (∑ i : Fin 1, c i * late ([1].get i) r + (mean (late 0) - ∑ i : Fin 1, c i * mean (late ([1].get i)))) = _
      simp only [Fin.sum_univ_one, hk]
      rfl
    rw [this]
    simp only [late]
    by_cases h100 : r = 100
    · subst h100; rw [if_pos rfl, if_neg (by decide), if_pos rfl, if_neg (by decide)]; ring
    · by_cases hr1 : r = 1
      · subst hr1; rw [if_neg (by decide), if_pos rfl, if_neg (by decide), if_pos rfl]; ring
      · rw [if_neg h100, if_neg hr1, if_neg h100, if_neg hr1]; ring
  have e0 : 101 * (-k) + (1 - c 0) + -c 0 = 0 := by
    refine (sum_late _ _ _).symm.trans (Eq.trans (sum_congr rfl fun r _ => (hr r).symm) h0)
  have e1 : 101 * 0 + (1 - c 0 - k) + (-c 0 - k) = 0 := by
    refine (sum_late _ _ _).symm.trans (Eq.trans (sum_congr rfl fun r _ => ?_) (h1 0))
    rw [hr r]
    show _ = _ * late 1 r
    simp only [late]
    by_cases h100 : r = 100
    · have h1 : ¬ (100 : Fin 101) = 1 := by decide
      subst h100; simp only [if_true, if_neg h1]; ring
    · by_cases hr1 : r = 1
      · subst hr1; simp only [if_true, if_neg h100]; ring
      · simp only [if_neg h100, if_neg hr1]; ring
  have hk0 : k = 0 := by linarith
  have hc0 : c 0 = 1 / 2 := by linarith
  funext r
  rw [hr r, hk0, hc0]
  norm_num

theorem resid_late_one {L : Lib 101} (hL : OlsRight L) :
    resid L late 1 [0] = fun r => -(1 / 100) + (if r = 100 then 1 / 100 else 0) + if r = 1 then 1 else 0 := by
  obtain ⟨h0, h1⟩ := residOf_normal (hL _ (cols late [0]) (late 1))
  unfold resid
  set c := L.ols [0].length (cols late [0]) (late 1) with hc
  set k := mean (late 1) - c 0 * mean (late 0) with hk
  have hr : ∀ r, residOf c (cols late [0]) (late 1) r = -k + (if r = 100 then 1 - c 0 else 0) + if r = 1 then 1 else 0 := fun r => by
    have : residOf c (cols late [0]) (late 1) r = late 1 r - (c 0 * late 0 r + k) := by
      show late 1 r - (∑ i : Fin 1, c i * late ([0].get i) r + (mean (late 1) - ∑ i : Fin 1, c i * mean (late ([0].get i)))) = _
      simp only [Fin.sum_univ_one, hk]
      rfl
    rw [this]
    simp only [late]
    by_cases h100 : r = 100
    · subst h100; rw [if_pos rfl, if_neg (by decide), if_pos rfl]; ring
    · by_cases hr1 : r = 1
      · subst hr1; rw [if_neg (by decide), if_pos rfl, if_neg (by decide)]; ring
      · rw [if_neg h100, if_neg hr1, if_neg h100]; ring
  have e0 : 101 * (-k) + (1 - c 0) + 1 = 0 := by
    refine (sum_late _ _ _).symm.trans (Eq.trans (sum_congr rfl fun r _ => (hr r).symm) h0)
  have e1 : 101 * 0 + (1 - c 0 - k) + 0 = 0 := by
    refine (sum_late _ _ _).symm.trans (Eq.trans (sum_congr rfl fun r _ => ?_) (h1 0))
    rw [hr r]
    show _ = _ * late 0 r
    simp only [late]
    by_cases h100 : r = 100
    · have h1 : ¬ (100 : Fin 101) = 1 := by decide
      subst h100; simp only [if_true, if_neg h1]; ring
    · simp only [if_neg h100, ite_self]; ring
  have hk0 : k = 1 / 100 := by linarith
  have hc0 : 1 - c 0 = 1 / 100 := by linarith
  funext r
  rw [hr r, hk0, hc0]

theorem spread_of {x y : Fin 101} (hxy : x ≠ y) (k : ℝ) {u v : ℝ} (hv : v ≠ 0) (hu : x.val ≠ 100 → u ^ 2 ≤ v ^ 2 ∧ (u - v) ^ 2 ≤ v ^ 2)
    (hy : y.val < 100) : Hsic.Spread x y (fun r => k + (if r = x then u else 0) + if r = y then v else 0) := by
  have hrest : ∀ i : Fin 101, i ≠ x → i ≠ y → (k + (if i = x then u else 0) + if i = y then v else 0) = k := fun i hx hy => by
    rw [if_neg hx, if_neg hy]; ring
  have hyv : (k + (if y = x then u else 0) + if y = y then v else 0) = k + v := by
    rw [if_neg hxy.symm, if_pos rfl]; ring
  have hxv : (k + (if x = x then u else 0) + if x = y then v else 0) = k + u := by
    rw [if_neg hxy, if_pos rfl]; ring
  refine ⟨hxy, fun i j hix hiy hjx hjy => by rw [hrest i hix hiy, hrest j hjx hjy], ?_, v ^ 2, fun i j hi hj => ?_, Or.inr fun i hix hiy => ?_⟩
  · obtain ⟨z, hz⟩ : ∃ z : Fin 101, z.val < 100 ∧ z ≠ x ∧ z ≠ y := by
      have : ∀ x y : Fin 101, ∃ z : Fin 101, z.val < 100 ∧ z ≠ x ∧ z ≠ y := by
        intro x y
        by_cases h0 : (0 : Fin 101) ≠ x ∧ (0 : Fin 101) ≠ y
        · exact ⟨0, by norm_num, h0⟩
        · by_cases h1 : (1 : Fin 101) ≠ x ∧ (1 : Fin 101) ≠ y
          · exact ⟨1, by decide, h1⟩
          · refine ⟨2, by decide, ?_, ?_⟩ <;> rintro rfl <;> simp only [ne_eq, not_and_or, not_not] at h0 h1 <;> omega
      exact this x y
    refine ⟨z, y, hz.1, hy, fun e => hv ?_⟩
    rw [hrest z hz.2.1 hz.2.2, hyv] at e
    linarith
  · have cases3 : ∀ i : Fin 101, i.val < 100 → (i = x ∧ x.val ≠ 100) ∨ i = y ∨ (i ≠ x ∧ i ≠ y) := fun i hi => by
      by_cases hix : i = x
      · exact Or.inl ⟨hix, fun h => by rw [hix, h] at hi; exact lt_irrefl _ hi⟩
      · by_cases hiy : i = y
        · exact Or.inr (Or.inl hiy)
        · exact Or.inr (Or.inr ⟨hix, hiy⟩)
    have hv2 := sq_nonneg v
    rcases cases3 i hi with ⟨rfl, hx⟩ | rfl | ⟨hix, hiy⟩ <;> rcases cases3 j hj with ⟨rfl, hx'⟩ | rfl | ⟨hjx, hjy⟩
    · simpa using hv2
    · rw [hxv, hyv, show (k + u - (k + v)) ^ 2 = (u - v) ^ 2 by ring]; exact (hu hx).2
    · rw [hxv, hrest j hjx hjy, show (k + u - k) ^ 2 = u ^ 2 by ring]; exact (hu hx).1
    · rw [hxv, hyv, show (k + v - (k + u)) ^ 2 = (u - v) ^ 2 by ring]; exact (hu hx').2
    · simpa using hv2
    · rw [hyv, hrest j hjx hjy, show (k + v - k) ^ 2 = v ^ 2 by ring]
    · rw [hxv, hrest i hix hiy, show (k - (k + u)) ^ 2 = u ^ 2 by ring]; exact (hu hx').1
    · rw [hyv, hrest i hix hiy, show (k - (k + v)) ^ 2 = v ^ 2 by ring]
    · rw [hrest i hix hiy, hrest j hjx hjy]; simpa using hv2
  · rw [hyv, hrest i hix hiy, show (k - (k + v)) ^ 2 = v ^ 2 by ring]

/-- The first and the last row exchanged. -/
def endsSwapped : Equiv.Perm (Fin 101) := Equiv.swap 0 100

theorem swapped_last (r : Fin 101) : endsSwapped r = 100 ↔ r = 0 := by
  unfold endsSwapped
  rw [Equiv.swap_apply_eq_iff, Equiv.swap_apply_right]

theorem swapped_second (r : Fin 101) : endsSwapped r = 1 ↔ r = 1 := by
  unfold endsSwapped
  rw [Equiv.swap_apply_eq_iff, Equiv.swap_apply_of_ne_of_ne (by decide) (by decide)]

theorem codev_pos {N : Nat} {v : Fin N → ℝ} {i j : Fin N} (h : v i ≠ v j) : codev v v ≠ 0 := by
  intro hc
  have h0 := (sum_eq_zero_iff_of_nonneg fun r _ => mul_self_nonneg _).1 hc
  have hi := mul_self_eq_zero.1 (h0 i (mem_univ i))
  have hj := mul_self_eq_zero.1 (h0 j (mem_univ j))
  exact h (by linarith)

/-- **C222 is violated with more than 100 rows.** For these 101 rows RCD finds the second variable to be an ancestor of the first one; when
the first and the last row are exchanged it does not. -/
theorem C222_violated {L : Lib 101} (hL : OlsRight L) (hsf : ∀ a b d, L.gammaSf a b d = 1) (hp : ∀ r, L.pearsonSf r = 0) (hs : ∀ v, L.shapiro v = 0)
    {g : Cfg} (hg : g.mlhsicr = false) (hh : g.hsic = true) (ha : 0 ≤ g.shapiroAlpha) (hc : 0 < g.corAlpha) (hi : g.indAlpha < 1) :
    ∃ M B M' B', fit L g 2 2 4 late = some (M, B) ∧ fit L g 2 2 4 (fun j r => late j (endsSwapped r)) = some (M', B') ∧ 1 ∈ M 0 ∧ 1 ∉ M' 0 := by
  have hw : ∀ (X : Nat → Fin 101 → ℝ) x, without L 2 X ∅ x = X x := fun X x => by
    unfold without
    rw [if_pos rfl]
  have hng : ∀ X x, (tests L g 2 X).nonGauss ∅ x = true := fun X x => by
    unfold tests
    simp only [hs]
    simpa using ha
  have hcorr : ∀ X : Nat → Fin 101 → ℝ, codev (X 0) (X 0) ≠ 0 → codev (X 1) (X 1) ≠ 0 → (tests L g 2 X).corr ∅ 0 ∅ 1 = true := fun X h0 h1 => by
    unfold tests
    simp only [hw]
    unfold isCorrelated pearsonP
    rw [if_neg (not_or.2 ⟨h0, h1⟩)]
    simpa [hp] using hc
  have c0 : codev (late 0) (late 0) ≠ 0 := codev_pos (i := 0) (j := 100) (by simp [late])
  have c1 : codev (late 1) (late 1) ≠ 0 := codev_pos (i := 0) (j := 100) (by simp [late])
  have hind : ∀ (X : Nat → Fin 101 → ℝ) x y, (tests L g 2 X).indep ∅ x [y] = isIndependent L g (resid L X x [y]) (X y) := fun X x y => by
    unfold tests
    simp only
    have : without L 2 X ∅ = X := funext (hw X)
    rw [this]
    unfold isIndependentOfResid
    simp [hg]
  have hyes : ∀ {x y : Fin 101} {a b : Fin 101 → ℝ}, Hsic.Spread x y a → Hsic.Spread x y b → x ≠ 2 → x ≠ 3 → y ≠ 2 → y ≠ 3 →
      isIndependent L g a b = true := fun {x y a b} h1 h2 x2 x3 y2 y3 => by
    obtain ⟨s, u, v, t, ht⟩ := Hsic.test_spread (by norm_num) L.gammaSf h1 h2 (i := 2) (j := 3) (by decide) x2.symm y2.symm x3.symm y3.symm
    unfold isIndependent
    rw [if_pos hh, ht]
    simpa [hsf] using hi
  have r0 := resid_late_zero hL
  have r1 := resid_late_one hL
  have hA : (tests L g 2 late).indep ∅ 0 [1] = true := by
    rw [hind, r0]
    refine hyes (x := 100) (y := 1) ?_ ?_ (by decide) (by decide) (by decide) (by decide)
    · have := spread_of (x := 100) (y := 1) (by decide) 0 (u := 1 / 2) (v := -(1 / 2)) (by norm_num) (fun h => absurd rfl h) (by decide)
      simpa only [zero_add] using this
    · have := spread_of (x := 100) (y := 1) (by decide) 0 (u := 1) (v := 1) (by norm_num) (fun h => absurd rfl h) (by decide)
      simp only [zero_add] at this
      exact this
  have hB : (tests L g 2 late).indep ∅ 1 [0] = false := by
    rw [hind]
    unfold isIndependent
    rw [if_pos hh, (Hsic.C117_hsic_nan (by norm_num) L.gammaSf _ _).2 (Or.inr fun i j hi hj => ?_)]
    funext k
    show late 0 i = late 0 j
    have hi : i ≠ 100 := fun h => by rw [h] at hi; exact absurd hi (by decide)
    have hj : j ≠ 100 := fun h => by rw [h] at hj; exact absurd hj (by decide)
    simp only [late]
    rw [if_neg hi, if_neg hj]
  have hB' : (tests L g 2 (fun j r => late j (endsSwapped r))).indep ∅ 1 [0] = true := by
    rw [hind, resid_rows hL, r1]
    refine hyes (x := 0) (y := 1) ?_ ?_ (by decide) (by decide) (by decide) (by decide)
    · have := spread_of (x := 0) (y := 1) (by decide) (-(1 / 100)) (u := 1 / 100) (v := 1) (by norm_num) (fun _ => by norm_num) (by decide)
      simpa only [swapped_last, swapped_second] using this
    · have := (spread_of (x := 1) (y := 0) (by decide) 0 (u := 0) (v := 1) (by norm_num) (fun _ => by norm_num) (by decide)).symm
      simp only [zero_add, ite_self] at this
      simpa only [late, swapped_last] using this
  obtain ⟨M, hM, h1⟩ := (Rcd.ancestors_two (hng late 0) (hng late 1) (hcorr late c0 c1)).1 hA hB
  obtain ⟨M', hM', h1'⟩ := (Rcd.ancestors_two (hng _ 0) (hng _ 1) (hcorr (fun j r => late j (endsSwapped r)) (by rw [codev_rows]; exact c0)
    (by rw [codev_rows]; exact c1))).2 hB'
  unfold fit Rcd.fit
  rw [hM, hM']
  exact ⟨M, _, M', _, rfl, rfl, h1, h1'⟩

/-- The hypotheses are met for the default settings of the constructor. -/
example (R : FCorr.Routines) : ∃ (L : Lib 101) (M M' : Rcd.Anc) (B B' : Nat → Nat → Option ℝ), OlsRight L ∧ ShapiroRows L ∧
    fit L ⟨1 / 100, 1 / 100, 1 / 100, false, true, 1 / 2⟩ 2 2 4 late = some (M, B) ∧
    fit L ⟨1 / 100, 1 / 100, 1 / 100, false, true, 1 / 2⟩ 2 2 4 (fun j r => late j (endsSwapped r)) = some (M', B') ∧ M ≠ M' := by
  obtain ⟨L, hL, hS, h1, _, h3, h4⟩ := exists_lib_rows (N := 101) R (fun _ _ _ => 1) (fun _ => 0)
  obtain ⟨M, B, M', B', a, b, c, d⟩ := C222_violated hL (fun x y z => by rw [h1]) (fun r => by rw [h3]) h4
    (g := ⟨1 / 100, 1 / 100, 1 / 100, false, true, 1 / 2⟩) rfl rfl (by norm_num) (by norm_num) (by norm_num)
  exact ⟨L, M, M', B, B', hL, hS, a, b, fun h => d (h ▸ c)⟩

end Verif.RcdData
