import Verif.Model.Score
import Verif.Proofs.DataUtils
import Mathlib.Algebra.BigOperators.Module
import Mathlib.MeasureTheory.Integral.Gamma
import Mathlib.Analysis.SpecialFunctions.Gaussian.GaussianIntegral
import Mathlib.Tactic.FieldSimp
import Mathlib.Tactic.Positivity

set_option autoImplicit false
set_option linter.unusedSectionVars false
namespace Verif.Score

variable {N : Nat}

/-! ### The likelihood as a function of the residual -/

theorem mean_smul (c : ℝ) (x : Fin N → ℝ) : mean (fun r => c * x r) = c * mean x := by
  simp [mean, ← Finset.mul_sum, mul_div_assoc]

theorem mean_add_const (hN : N ≠ 0) (c : ℝ) (x : Fin N → ℝ) : mean (fun r => x r + c) = mean x + c := by
  have : (N : ℝ) ≠ 0 := by exact_mod_cast hN
  simp only [mean, Finset.sum_add_distrib, Finset.sum_const, Finset.card_univ, Fintype.card_fin, nsmul_eq_mul]
  field_simp

theorem mean_eq (x : Fin N → ℝ) : mean x = (∑ r, x r) / N := rfl

/-- Empirical variance. -/
noncomputable def var (x : Fin N → ℝ) : ℝ := mean (fun r => (x r - mean x) ^ 2)

theorem var_smul (c : ℝ) (x : Fin N → ℝ) : var (fun r => c * x r) = c ^ 2 * var x := by
  unfold var
  simp only [mean_smul c x]
  rw [← mean_smul (c ^ 2)]
  congr 1
  funext r
  ring

theorem var_add_const (c : ℝ) (x : Fin N → ℝ) : var (fun r => x r + c) = var x := by
  by_cases hN : N = 0
  · subst hN; simp [var, mean]
  · unfold var
    rw [mean_add_const hN]
    congr 1
    funext r
    ring

theorem var_nonneg (x : Fin N → ℝ) : 0 ≤ var x := by
  unfold var mean
  exact div_nonneg (Finset.sum_nonneg fun r _ => sq_nonneg _) (Nat.cast_nonneg N)

theorem varianceI_eq (d : Nat) (x : Nat → Fin N → ℝ) (i : Nat) (b : Nat → ℝ) : varianceI d x i b = var (disturbance d x i b) := rfl

/-- The likelihood in terms of the standardised residual. -/
noncomputable def likelihood (v : ℝ) (res : Fin N → ℝ) : Option ℝ :=
  if v = 0 then none else some (∑ r, logP (res r / √v) - N * Real.log √v)

theorem likelihoodI_eq (d : Nat) (x : Nat → Fin N → ℝ) (i : Nat) (b : Nat → ℝ) (b0 : ℝ) :
    likelihoodI d x i b b0 = likelihood (var (disturbance d x i b)) (fun r => disturbance d x i b r - b0) := rfl

theorem likelihood_smul {c : ℝ} (hc : c ≠ 0) (v : ℝ) (hv : 0 ≤ v) (res : Fin N → ℝ) :
    likelihood (c ^ 2 * v) (fun r => c * res r) = (likelihood v res).map (· - N * Real.log |c|) := by
  unfold likelihood
  by_cases h : v = 0
  · simp [h]
  · have hc2 : c ^ 2 * v ≠ 0 := mul_ne_zero (pow_ne_zero _ hc) h
    have hs : √(c ^ 2 * v) = |c| * √v := by
      rw [Real.sqrt_mul (sq_nonneg c), Real.sqrt_sq_eq_abs]
    have hsv : √v ≠ 0 := (Real.sqrt_pos.2 (lt_of_le_of_ne hv (Ne.symm h))).ne'
    have hac : |c| ≠ 0 := abs_ne_zero.2 hc
    rw [if_neg hc2, if_neg h, hs]
    simp only [Option.map_some, Option.some.injEq]
    rw [Real.log_mul hac hsv]
    have : ∀ r, logP (c * res r / (|c| * √v)) = logP (res r / √v) := by
      intro r
      unfold logP
      congr 2
      rw [abs_div, abs_mul, abs_mul, abs_abs, abs_div]
      field_simp
    simp only [this]
    ring

/-! ### Parents and coefficients -/

theorem mem_parents {d : Nat} {W : Nat → Nat → ℝ} {i j : Nat} : j ∈ parents d W i ↔ j < d ∧ W j i ≠ 0 := by
  simp [parents]

theorem nodup_parents (d : Nat) (W : Nat → Nat → ℝ) (i : Nat) : (parents d W i).Nodup := List.nodup_range.filter _

theorem sum_spread {d : Nat} (f : Nat → ℝ) : ∀ {ps : List Nat} {cs : List ℝ}, ps.Nodup → (∀ j ∈ ps, j < d) → cs.length = ps.length →
    ∑ j ∈ Finset.range d, spread ps cs j * f j = ((cs.zip (ps.map f)).map (fun p => p.1 * p.2)).sum
  | [], cs, _, _, _ => by simp [spread]
  | p :: ps, [], _, _, h => by simp at h
  | p :: ps, c :: cs, hn, hd, hl => by
    obtain ⟨h1, h2⟩ := List.nodup_cons.1 hn
    have ih := sum_spread f h2 (fun j hj => hd j (by simp [hj])) (by simpa using hl : cs.length = ps.length)
    simp only [List.map_cons, List.zip_cons_cons, List.sum_cons]
    rw [← ih]
    have hp : p ∈ Finset.range d := Finset.mem_range.2 (hd p (by simp))
    have hsp : spread ps cs p = 0 := by
      unfold spread
      have : (ps.zip cs).lookup p = none := by
        rw [List.lookup_eq_none_iff]
        rintro ⟨a, b⟩ hab
        have ha := (List.of_mem_zip hab).1
        rw [bne_iff_ne]
        rintro rfl; exact h1 ha
      rw [this]; rfl
    rw [← Finset.add_sum_erase _ _ hp, ← Finset.add_sum_erase (Finset.range d) (fun j => spread ps cs j * f j) hp, hsp, zero_mul, zero_add]
    congr 1
    · simp [spread]
    · refine Finset.sum_congr rfl fun j hj => ?_
      have hjp : j ≠ p := (Finset.mem_erase.1 hj).1
      have hb : (j == p) = false := beq_eq_false_iff_ne.2 hjp
      congr 1
      simp [spread, List.lookup, hb]

/-! ### Least squares -/

/-- What least squares with an intercept promises: the normal equations. -/
def NormalEquations (m : List ℝ × ℝ) (cols : List (Fin N → ℝ)) (y : Fin N → ℝ) : Prop :=
  m.1.length = cols.length ∧ ∑ r, (y r - (m.2 + ((m.1.zip cols).map (fun p => p.1 * p.2 r)).sum)) = 0 ∧
    ∀ c ∈ cols, ∑ r, (y r - (m.2 + ((m.1.zip cols).map (fun p => p.1 * p.2 r)).sum)) * c r = 0

theorem comb_mem (S : List Nat) (X : Nat → Fin N → ℝ) : ∀ (cs : List ℝ) (T : List Nat), (∀ j ∈ T, j ∈ S) →
    (fun r => ((cs.zip (T.map X)).map (fun p => p.1 * p.2 r)).sum) ∈ affineSpan S X := by
  intro cs
  induction cs with
  | nil => intro T _; simpa using DataUtils.const_mem S X 0
  | cons c cs ih =>
    intro T hT
    cases T with
    | nil => simpa using DataUtils.const_mem S X 0
    | cons j T =>
      have h1 := Submodule.add_mem _ (Submodule.smul_mem (affineSpan S X) c (DataUtils.col_mem (X := X) (hT j (by simp))))
        (ih T fun k hk => hT k (by simp [hk]))
      have : (fun r => (((c :: cs).zip ((j :: T).map X)).map (fun p => p.1 * p.2 r)).sum) =
          c • X j + fun r => ((cs.zip (T.map X)).map (fun p => p.1 * p.2 r)).sum := by
        funext r; simp
      rw [this]; exact h1

theorem residual_of_normal {S : List Nat} {X : Nat → Fin N → ℝ} {y : Fin N → ℝ} {m : List ℝ × ℝ} (h : NormalEquations m (S.map X) y) :
    IsRegressionResidual S X y (fun r => y r - (m.2 + ((m.1.zip (S.map X)).map (fun p => p.1 * p.2 r)).sum)) := by
  obtain ⟨-, h1, h2⟩ := h
  refine ⟨?_, h1, fun j hj => h2 (X j) (List.mem_map_of_mem hj)⟩
  have : (y - fun r => y r - (m.2 + ((m.1.zip (S.map X)).map (fun p => p.1 * p.2 r)).sum)) =
      (fun _ => m.2) + fun r => ((m.1.zip (S.map X)).map (fun p => p.1 * p.2 r)).sum := by
    funext r; simp
  rw [this]
  exact Submodule.add_mem _ (DataUtils.const_mem S X m.2) (comb_mem S X m.1 S fun _ h => h)

/-- Residuals follow a change of units. -/
theorem residual_units {S : List Nat} {X : Nat → Fin N → ℝ} {c a : Nat → ℝ} (hc : ∀ j ∈ S, c j ≠ 0) {i : Nat} {res : Fin N → ℝ}
    (h : IsRegressionResidual S X (X i) res) :
    IsRegressionResidual S (fun j r => c j * X j r + a j) (fun r => c i * X i r + a i) (fun r => c i * res r) := by
  obtain ⟨h1, h2, h3⟩ := h
  refine ⟨?_, ?_, ?_⟩
  · have hle : affineSpan S X ≤ affineSpan S (fun j r => c j * X j r + a j) := by
      unfold affineSpan
      rw [Submodule.span_le]
      rintro f (hf | ⟨j, hj, rfl⟩)
      · exact Submodule.subset_span (.inl hf)
      · have hj' : (fun r => c j * X j r + a j) ∈ affineSpan S (fun j r => c j * X j r + a j) :=
          DataUtils.col_mem (X := fun j r => c j * X j r + a j) hj
        have := Submodule.smul_mem _ (c j)⁻¹ (Submodule.sub_mem _ hj' (DataUtils.const_mem S (fun j r => c j * X j r + a j) (a j)))
        have e : X j = (c j)⁻¹ • ((fun r => c j * X j r + a j) - fun _ => a j) := by
          funext r
          simp only [Pi.smul_apply, Pi.sub_apply, smul_eq_mul, add_sub_cancel_right]
          rw [inv_mul_cancel_left₀ (hc j hj)]
        rw [e]; exact this
    have e : ((fun r => c i * X i r + a i) - fun r => c i * res r) = c i • (X i - res) + fun _ => a i := by
      funext r
      simp only [Pi.sub_apply, Pi.add_apply, Pi.smul_apply, smul_eq_mul]
      ring
    rw [e]
    exact Submodule.add_mem _ (Submodule.smul_mem _ _ (hle h1)) (DataUtils.const_mem _ _ _)
  · rw [← Finset.mul_sum, h2, mul_zero]
  · intro j hj
    have : ∀ r, c i * res r * (c j * X j r + a j) = c i * c j * (res r * X j r) + c i * a j * res r := fun r => by ring
    simp only [this, Finset.sum_add_distrib, ← Finset.mul_sum, h3 j hj, h2, mul_zero, add_zero]

/-- The likelihood of a least squares fit depends on the residual only. -/
theorem likelihoodI_residual {d : Nat} {x : Nat → Fin N → ℝ} {i : Nat} {ps : List Nat} (hn : ps.Nodup) (hd : ∀ j ∈ ps, j < d)
    {m : List ℝ × ℝ} (hm : NormalEquations m (ps.map x) (x i)) :
    ∃ res, IsRegressionResidual ps x (x i) res ∧ likelihoodI d x i (spread ps m.1) m.2 = likelihood (var res) res := by
  refine ⟨_, residual_of_normal hm, ?_⟩
  have hl : m.1.length = ps.length := by have := hm.1; simpa using this
  have hdis : ∀ r, disturbance d x i (spread ps m.1) r = x i r - ((m.1.zip (ps.map x)).map (fun p => p.1 * p.2 r)).sum := by
    intro r
    unfold disturbance
    rw [sum_spread (fun j => x j r) hn hd hl]
    congr 2
    rw [List.zip_map_right, List.zip_map_right, List.map_map, List.map_map]
    rfl
  have hres : (fun r => disturbance d x i (spread ps m.1) r - m.2) =
      fun r => x i r - (m.2 + ((m.1.zip (ps.map x)).map (fun p => p.1 * p.2 r)).sum) := by
    funext r; rw [hdis r]; ring
  rw [likelihoodI_eq, hres]
  congr 1
  rw [← hres]
  exact (var_add_const (-m.2) (disturbance d x i (spread ps m.1))).symm

theorem likelihoodI_no_parents (d : Nat) (x : Nat → Fin N → ℝ) (i : Nat) :
    ∃ res, IsRegressionResidual [] x (x i) res ∧ likelihoodI d x i (fun _ => 0) (mean (x i)) = likelihood (var res) res := by
  refine ⟨fun r => x i r - mean (x i), ⟨?_, ?_, by simp⟩, ?_⟩
  · have : (x i - fun r => x i r - mean (x i)) = fun _ => mean (x i) := by funext r; simp
    rw [this]; exact DataUtils.const_mem _ _ _
  · by_cases hN : N = 0
    · subst hN; simp
    · have hN' : (N : ℝ) ≠ 0 := by exact_mod_cast hN
      rw [Finset.sum_sub_distrib]
      simp only [mean, Finset.sum_const, Finset.card_univ, Fintype.card_fin, nsmul_eq_mul]
      field_simp
      ring
  · rw [likelihoodI_eq]
    have : disturbance d x i (fun _ => 0) = x i := by funext r; simp [disturbance]
    rw [this]
    congr 1
    exact (var_add_const (-mean (x i)) (x i)).symm

/-! ### Sums with NaN -/

theorem sumNan_map {l : List Nat} {f g : Nat → Option ℝ} {k : Nat → ℝ} (h : ∀ i ∈ l, g i = (f i).map (· - k i)) :
    sumNan (l.map g) = (sumNan (l.map f)).map (· - (l.map k).sum) := by
  induction l with
  | nil => simp [sumNan]
  | cons a l ih =>
    have ih' := ih fun i hi => h i (by simp [hi])
    have ha := h a (by simp)
    simp only [List.map_cons]
    rw [ha]
    cases hf : f a with
    | none => simp [sumNan]
    | some v =>
      simp only [Option.map_some, sumNan, ih', List.sum_cons]
      cases sumNan (l.map f) with
      | none => rfl
      | some w => simp only [Option.map_some, Option.some.injEq]; ring

theorem sumNan_eq_some {l : List Nat} {f : Nat → Option ℝ} {g : Nat → ℝ} (h : ∀ i ∈ l, f i = some (g i)) :
    sumNan (l.map f) = some ((l.map g).sum) := by
  induction l with
  | nil => rfl
  | cons a l ih =>
    simp only [List.map_cons, h a (by simp), sumNan, ih fun i hi => h i (by simp [hi]), Option.map_some, List.sum_cons]

/-! ### The score as a sum over the variables -/

theorem sumNan_some_iff {l : List Nat} {f : Nat → Option ℝ} {s : ℝ} :
    sumNan (l.map f) = some s ↔ (∀ i ∈ l, f i ≠ none) ∧ s = (l.map (fun i => (f i).getD 0)).sum := by
  induction l generalizing s with
  | nil => simp [sumNan, eq_comm]
  | cons a l ih =>
    cases hf : f a with
    | none => simp [sumNan, hf]
    | some v =>
      simp only [List.map_cons, hf, sumNan, Option.map_eq_some_iff, ih, List.mem_cons, forall_eq_or_imp, Option.getD_some, List.sum_cons]
      constructor
      · rintro ⟨w, ⟨h1, rfl⟩, rfl⟩; exact ⟨⟨by simp, h1⟩, rfl⟩
      · rintro ⟨⟨-, h1⟩, rfl⟩; exact ⟨_, ⟨h1, rfl⟩, rfl⟩

/-- What a variable adds to the score, its share of the penalty included. -/
noncomputable def share (R : Routines N) (discrete : Nat → Bool) (poisson : Bool) (d : Nat) (x : Nat → Fin N → ℝ)
    (ps : List Nat) (i : Nat) : ℝ :=
  (localScore R discrete poisson d x ps i).getD 0 - Real.log N / 2 * (ps.length + 1)

theorem score_some {R : Routines N} {discrete : Nat → Bool} {poisson : Bool} {d : Nat} {x : Nat → Fin N → ℝ} {W : Nat → Nat → ℝ} {s : ℝ}
    (h : score R discrete poisson d x W = some s) :
    (∀ i, i < d → localScore R discrete poisson d x (parents d W i) i ≠ none) ∧
      s = ∑ i ∈ Finset.range d, share R discrete poisson d x (parents d W i) i := by
  unfold score at h
  rw [Option.map_eq_some_iff] at h
  obtain ⟨t, ht, rfl⟩ := h
  obtain ⟨h1, rfl⟩ := sumNan_some_iff.1 ht
  refine ⟨fun i hi => h1 i (List.mem_range.2 hi), ?_⟩
  have e : ∀ g : Nat → ℝ, ((List.range d).map g).sum = ∑ i ∈ Finset.range d, g i := fun g => by
    rw [← List.sum_toFinset g List.nodup_range, List.toFinset_range]
  have e2 : ∀ g : Nat → Nat, ((List.range d).map g).sum = ∑ i ∈ Finset.range d, g i := fun g => by
    rw [← List.sum_toFinset g List.nodup_range, List.toFinset_range]
  unfold share edges
  rw [e, e2, Finset.sum_sub_distrib, ← Finset.mul_sum, Finset.sum_add_distrib]
  simp

theorem score_isSome {R : Routines N} {discrete : Nat → Bool} {poisson : Bool} {d : Nat} {x : Nat → Fin N → ℝ} {W : Nat → Nat → ℝ}
    (h : ∀ i, i < d → localScore R discrete poisson d x (parents d W i) i ≠ none) :
    score R discrete poisson d x W = some (∑ i ∈ Finset.range d, share R discrete poisson d x (parents d W i) i) := by
  have : sumNan ((List.range d).map (fun i => localScore R discrete poisson d x (parents d W i) i)) = some _ :=
    sumNan_some_iff.2 ⟨fun i hi => h i (List.mem_range.1 hi), rfl⟩
  have hs : ∃ s, score R discrete poisson d x W = some s := by
    unfold score; rw [this]; exact ⟨_, rfl⟩
  obtain ⟨s, hs⟩ := hs
  rw [hs, (score_some hs).2]

theorem parents_congr {d : Nat} {W W' : Nat → Nat → ℝ} {i : Nat} (h : ∀ j, j < d → (W j i ≠ 0 ↔ W' j i ≠ 0)) : parents d W i = parents d W' i := by
  unfold parents
  refine List.filter_congr fun j hj => ?_
  simp only [h j (List.mem_range.1 hj)]

theorem pairwise_parents (d : Nat) (W : Nat → Nat → ℝ) (i : Nat) : (parents d W i).Pairwise (· < ·) :=
  List.Pairwise.filter _ List.pairwise_lt_range

theorem last_of_sorted {l : List Nat} (hl : l.Pairwise (· < ·)) {p : Nat} (hp : p ∈ l) (hm : ∀ q ∈ l, q ≤ p) : ∃ l', l = l' ++ [p] := by
  have hne : l ≠ [] := List.ne_nil_of_mem hp
  refine ⟨l.dropLast, ?_⟩
  have e := List.dropLast_append_getLast hne
  rw [← e] at hl
  have h1 := (List.pairwise_append.1 hl).2.2
  have hlast := hm _ (List.getLast_mem hne)
  rw [← e] at hp
  rcases List.mem_append.1 hp with h | h
  · have := h1 p h _ (List.mem_singleton_self _)
    omega
  · rw [List.mem_singleton] at h
    rw [h]; exact e.symm

theorem poissonTerm_append (R : Routines N) (l : List (Fin N → ℝ)) (p y : Fin N → ℝ) : poissonTerm R (l ++ [p]) y = poissonOf R p y := by
  simp [poissonTerm]

theorem factorial_natCast (k : ℕ) : factorial (k : ℝ) = (k.factorial : ℝ) := by
  simp [factorial, pyRound]

open Classical in
theorem card_edges (d : Nat) (W : Nat → Nat → ℝ) :
    (((Finset.range d ×ˢ Finset.range d).filter (fun p => W p.1 p.2 ≠ 0)).card : ℝ) = ∑ i ∈ Finset.range d, ((parents d W i).length : ℝ) := by
  have h1 : ∀ i, (parents d W i).length = ((Finset.range d).filter (fun j => W j i ≠ 0)).card := by
    intro i
    rw [← List.toFinset_card_of_nodup (nodup_parents d W i)]
    congr 1
    ext j
    rw [List.mem_toFinset, mem_parents, Finset.mem_filter, Finset.mem_range]
  simp only [h1]
  rw [← Nat.cast_sum]
  congr 1
  rw [Finset.card_filter, Finset.sum_product_right]
  refine Finset.sum_congr rfl fun i _ => ?_
  rw [Finset.card_filter]

/-! ### Frequencies -/

open Classical in
theorem sum_fiber (y : Fin N → ℝ) (f : ℝ → ℝ) :
    ∑ r, f (y r) = ∑ v ∈ Finset.univ.image y, ((Finset.univ.filter (fun r => y r = v)).card : ℝ) * f v := by
  rw [← Finset.sum_fiberwise_of_maps_to (s := Finset.univ) (t := Finset.univ.image y) (g := y) fun r _ => Finset.mem_image_of_mem y (Finset.mem_univ r)]
  refine Finset.sum_congr rfl fun v _ => ?_
  rw [Finset.sum_congr rfl (g := fun _ => f v) fun r hr => by rw [(Finset.mem_filter.1 hr).2]]
  rw [Finset.sum_const, nsmul_eq_mul]

open Classical in
/-- The relative frequency of a value. -/
noncomputable def relative (y : Fin N → ℝ) (v : ℝ) : ℝ := ((Finset.univ.filter (fun r => y r = v)).card : ℝ) / N

theorem relative_pos (y : Fin N → ℝ) (r : Fin N) : 0 < relative y (y r) := by
  classical
  have hN : (0 : ℝ) < N := by exact_mod_cast r.pos
  unfold relative
  refine div_pos ?_ hN
  rw [Nat.cast_pos, Finset.card_pos]
  exact ⟨r, by simp⟩

theorem frequency_eq (y : Fin N → ℝ) : frequency y = ∑ r, Real.log (relative y (y r)) := by
  classical
  rw [sum_fiber y (fun v => Real.log (relative y v))]
  unfold frequency
  refine Finset.sum_congr rfl fun v hv => ?_
  obtain ⟨r, -, rfl⟩ := Finset.mem_image.1 hv
  have hN : (N : ℝ) ≠ 0 := by exact_mod_cast r.pos.ne'
  have hc : ((Finset.univ.filter (fun s => y s = y r)).card : ℝ) ≠ 0 := by
    have : 0 < (Finset.univ.filter (fun s => y s = y r)).card := Finset.card_pos.2 ⟨r, by simp⟩
    exact_mod_cast this.ne'
  congr 1
  unfold relative
  rw [Real.log_div (by convert hc) hN]

theorem sum_relative (y : Fin N → ℝ) (s : Finset ℝ) : ∑ v ∈ s, relative y v ≤ 1 := by
  classical
  by_cases hN : N = 0
  · subst hN; simp [relative]
  · have hN' : (0 : ℝ) < N := by exact_mod_cast Nat.pos_of_ne_zero hN
    unfold relative
    rw [← Finset.sum_div, div_le_one hN', ← Nat.cast_sum, Nat.cast_le]
    rw [← Finset.card_biUnion]
    · exact (Finset.card_le_univ _).trans (by simp)
    · intro v _ w _ hvw
      rw [Function.onFun, Finset.disjoint_left]
      intro r h1 h2
      rw [Finset.mem_filter] at h1 h2
      exact hvw (h1.2.symm.trans h2.2)

/-! ### Densities -/

theorem exp_logP (s : ℝ) : Real.exp (logP s) = Real.exp (-(35 / 100)) * Real.exp (-(√2 * |s|)) := by
  rw [← Real.exp_add]; congr 1; unfold logP; ring

end Verif.Score
