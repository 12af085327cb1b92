import Verif.Proofs.Consistency
import Verif.Props.Pairwise

/-! The order found on ever larger samples, used by `Props/Consistency.lean`. -/
set_option linter.unusedSectionVars false
set_option autoImplicit false
namespace Verif.Consistency
open Finset MeasureTheory ProbabilityTheory Filter Topology

variable {Ω : Type*} [MeasurableSpace Ω] {P : Measure Ω} [IsProbabilityMeasure P] {R : Nat → Ω → Nat → ℝ} {n : Nat}

/-- Linear combination of coefficients. -/
def mix (s t : ℝ) (a b : Nat → ℝ) : Nat → ℝ := fun k => s * a k + t * b k

theorem form_mix (n : Nat) (s t : ℝ) (a b v : Nat → ℝ) : form n (mix s t a b) v = s * form n a v + t * form n b v :=
  form_add n a b s t v

theorem conv_mix {sN tN : Nat → ℝ} {s t : ℝ} {aN bN : Nat → Nat → ℝ} {a b : Nat → ℝ} (hs : Tendsto sN atTop (𝓝 s))
    (ht : Tendsto tN atTop (𝓝 t)) (ha : Conv n aN a) (hb : Conv n bN b) :
    Conv n (fun N => mix (sN N) (tN N) (aN N) (bN N)) (mix s t a b) := fun k hk =>
  (hs.mul (ha k hk)).add (ht.mul (hb k hk))

/-- A column of a sample. -/
noncomputable def col (n : Nat) (R : Nat → Ω → Nat → ℝ) (ω : Ω) (N : Nat) (a : Nat → ℝ) : Fin N → ℝ := fun r => form n a (R r ω)

/-- A random variable. -/
noncomputable def rv (n : Nat) (R : Nat → Ω → Nat → ℝ) (a : Nat → ℝ) : Ω → ℝ := fun x => form n a (R 0 x)

theorem mean_tendsto (hR : IidRows P R) (h2 : ∀ j, j < n → Integrable (fun ω => R 0 ω j ^ 2) P) {ω : Ω} (hω : Good n P R ω)
    {aN : Nat → Nat → ℝ} {a : Nat → ℝ} (ha : Conv n aN a) :
    Tendsto (fun N => sampleMean (col n R ω N (aN N))) atTop (𝓝 (meanOf P (rv n R a))) := form_tendsto hR h2 hω ha

theorem cov_tendsto (hR : IidRows P R) (h2 : ∀ j, j < n → Integrable (fun ω => R 0 ω j ^ 2) P) {ω : Ω} (hω : Good n P R ω)
    {aN bN : Nat → Nat → ℝ} {a b : Nat → ℝ} (ha : Conv n aN a) (hb : Conv n bN b) :
    Tendsto (fun N : Nat => (∑ r, (col n R ω N (aN N) r - sampleMean (col n R ω N (aN N))) *
      (col n R ω N (bN N) r - sampleMean (col n R ω N (bN N)))) / N) atTop (𝓝 (covOf P (rv n R a) (rv n R b))) := by
  have h := form_mul_tendsto hR h2 hω
    (conv_mix (tendsto_const_nhds (x := (1 : ℝ))) (mean_tendsto hR h2 hω ha).neg ha (conv_const n (unit n)))
    (conv_mix (tendsto_const_nhds (x := (1 : ℝ))) (mean_tendsto hR h2 hω hb).neg hb (conv_const n (unit n)))
  simp only [form_mix, form_unit, one_mul, mul_one, ← sub_eq_add_neg] at h
  exact h

/-- Coefficients of a standardised form. -/
noncomputable def zc (n : Nat) (μ s : ℝ) (a : Nat → ℝ) : Nat → ℝ := mix (1 / s) (-(μ / s)) a (unit n)

noncomputable def zN (n : Nat) (R : Nat → Ω → Nat → ℝ) (ω : Ω) (N : Nat) (a : Nat → ℝ) : Nat → ℝ :=
  zc n (sampleMean (col n R ω N a)) (√((∑ q, (col n R ω N a q - sampleMean (col n R ω N a)) ^ 2) / N)) a

noncomputable def zP (n : Nat) (P : Measure Ω) (R : Nat → Ω → Nat → ℝ) (a : Nat → ℝ) : Nat → ℝ :=
  zc n (meanOf P (rv n R a)) (√(covOf P (rv n R a) (rv n R a))) a

theorem form_zc (n : Nat) (μ s : ℝ) (a v : Nat → ℝ) : form n (zc n μ s a) v = (form n a v - μ) / s := by
  rw [zc, form_mix, form_unit]; ring

theorem zscore_col (ω : Ω) (N : Nat) (a : Nat → ℝ) : zscore (col n R ω N a) = col n R ω N (zN n R ω N a) := by
  funext r
  unfold zscore
  rw [col, col, zN, form_zc]

theorem zOf_rv (a : Nat → ℝ) : zOf P (rv n R a) = rv n R (zP n P R a) := by
  funext x
  unfold zOf
  rw [rv, rv, zP, form_zc]

theorem zN_conv (hR : IidRows P R) (h2 : ∀ j, j < n → Integrable (fun ω => R 0 ω j ^ 2) P) {ω : Ω} (hω : Good n P R ω)
    {aN : Nat → Nat → ℝ} {a : Nat → ℝ} (ha : Conv n aN a) (hv : 0 < covOf P (rv n R a) (rv n R a)) :
    Conv n (fun N => zN n R ω N (aN N)) (zP n P R a) := by
  have hm := mean_tendsto hR h2 hω ha
  have hc := cov_tendsto hR h2 hω ha ha
  simp only [← sq] at hc
  have hs := (Real.continuous_sqrt.tendsto _).comp hc
  have h0 : √(covOf P (rv n R a) (rv n R a)) ≠ 0 := (Real.sqrt_pos.2 hv).ne'
  exact conv_mix (tendsto_const_nhds.div hs h0) (hm.div hs h0).neg ha (conv_const n (unit n))

theorem corr_tendsto (hR : IidRows P R) (h2 : ∀ j, j < n → Integrable (fun ω => R 0 ω j ^ 2) P) {ω : Ω} (hω : Good n P R ω)
    {aN bN : Nat → Nat → ℝ} {a b : Nat → ℝ} (ha : Conv n aN a) (hb : Conv n bN b) (hva : 0 < covOf P (rv n R a) (rv n R a))
    (hvb : 0 < covOf P (rv n R b) (rv n R b)) :
    Tendsto (fun N => correlation (col n R ω N (aN N)) (col n R ω N (bN N))) atTop (𝓝 (corrOf P (rv n R a) (rv n R b))) := by
  unfold correlation corrOf
  simp only [zscore_col, zOf_rv]
  exact form_mul_tendsto hR h2 hω (zN_conv hR h2 hω ha hva) (zN_conv hR h2 hω hb hvb)

/-- Coefficients of a standardised residual. -/
noncomputable def rc (ρ : ℝ) (z w : Nat → ℝ) : Nat → ℝ := mix (1 / √(1 - ρ ^ 2)) (-(ρ / √(1 - ρ ^ 2))) z w

theorem form_rc (n : Nat) (ρ : ℝ) (z w v : Nat → ℝ) : form n (rc ρ z w) v = (form n z v - ρ * form n w v) / √(1 - ρ ^ 2) := by
  rw [rc, form_mix]; ring

theorem rc_conv {ρN : Nat → ℝ} {ρ : ℝ} {zN wN : Nat → Nat → ℝ} {z w : Nat → ℝ} (hρ : Tendsto ρN atTop (𝓝 ρ)) (h1 : ρ ^ 2 < 1)
    (hz : Conv n zN z) (hw : Conv n wN w) : Conv n (fun N => rc (ρN N) (zN N) (wN N)) (rc ρ z w) := by
  have hs : Tendsto (fun N => √(1 - ρN N ^ 2)) atTop (𝓝 (√(1 - ρ ^ 2))) :=
    (Real.continuous_sqrt.tendsto _).comp (tendsto_const_nhds.sub (hρ.pow 2))
  have h0 : √(1 - ρ ^ 2) ≠ 0 := (Real.sqrt_pos.2 (by linarith)).ne'
  exact conv_mix (tendsto_const_nhds.div hs h0) (hρ.div hs h0).neg hz hw

/-- The almost sure event on which the comparison of two variables converges. -/
structure FinePair (n : Nat) (P : Measure Ω) (R : Nat → Ω → Nat → ℝ) (ω : Ω) (a b : Nat → ℝ) : Prop where
  za : Fine n P R ω (zP n P R a)
  zb : Fine n P R ω (zP n P R b)
  ab : Fine n P R ω (rc (corrOf P (rv n R a) (rv n R b)) (zP n P R a) (zP n P R b))
  ba : Fine n P R ω (rc (corrOf P (rv n R a) (rv n R b)) (zP n P R b) (zP n P R a))

theorem ae_finePair (hR : IidRows P R) (h2 : ∀ j, j < n → Integrable (fun ω => R 0 ω j ^ 2) P) (a b : Nat → ℝ) :
    ∀ᵐ ω ∂P, FinePair n P R ω a b := by
  filter_upwards [ae_fine hR h2 (zP n P R a), ae_fine hR h2 (zP n P R b),
    ae_fine hR h2 (rc (corrOf P (rv n R a) (rv n R b)) (zP n P R a) (zP n P R b)),
    ae_fine hR h2 (rc (corrOf P (rv n R a) (rv n R b)) (zP n P R b) (zP n P R a))] with ω h1 h2 h3 h4
  exact ⟨h1, h2, h3, h4⟩

theorem direction_tendsto (hR : IidRows P R) (h2 : ∀ j, j < n → Integrable (fun ω => R 0 ω j ^ 2) P) {ω : Ω} (hω : Good n P R ω)
    {aN bN : Nat → Nat → ℝ} {a b : Nat → ℝ} (ha : Conv n aN a) (hb : Conv n bN b) (hva : 0 < covOf P (rv n R a) (rv n R a))
    (hvb : 0 < covOf P (rv n R b) (rv n R b)) (h1 : corrOf P (rv n R a) (rv n R b) ^ 2 < 1) (hf : FinePair n P R ω a b) :
    Tendsto (fun N => directionScore (correlation (col n R ω N (aN N)) (col n R ω N (bN N))) (zscore (col n R ω N (aN N)))
      (zscore (col n R ω N (bN N)))) atTop
      (𝓝 (directionOf P (corrOf P (rv n R a) (rv n R b)) (zOf P (rv n R a)) (zOf P (rv n R b)))) := by
  have hρ := corr_tendsto hR h2 hω ha hb hva hvb
  have hza := zN_conv hR h2 hω ha hva
  have hzb := zN_conv hR h2 hω hb hvb
  have e1 := entropy_tendsto hω hzb hf.zb
  have e2 := entropy_tendsto hω (rc_conv hρ h1 hza hzb) hf.ab
  have e3 := entropy_tendsto hω hza hf.za
  have e4 := entropy_tendsto hω (rc_conv hρ h1 hzb hza) hf.ba
  unfold directionScore directionOf
  simp only [zscore_col, zOf_rv]
  simp only [form_rc] at e2 e4
  exact (e1.add e2).sub (e3.add e4)

theorem list_tendsto {α : Type*} (l : List α) {f : Nat → α → ℝ} {g : α → ℝ} (h : ∀ x ∈ l, Tendsto (fun N => f N x) atTop (𝓝 (g x))) :
    Tendsto (fun N => (l.map (f N)).sum) atTop (𝓝 (l.map g).sum) := by
  induction l with
  | nil => simp
  | cons x l ih =>
    simp only [List.map_cons, List.sum_cons]
    exact (h x (by simp)).add (ih fun y hy => h y (by simp [hy]))

theorem penalty_tendsto (hR : IidRows P R) (h2 : ∀ j, j < n → Integrable (fun ω => R 0 ω j ^ 2) P) {ω : Ω} (hω : Good n P R ω)
    {aN : Nat → Nat → Nat → ℝ} {a : Nat → Nat → ℝ} {U : List Nat} (ha : ∀ j ∈ U, Conv n (fun N => aN N j) (a j))
    (hv : ∀ j ∈ U, 0 < covOf P (rv n R (a j)) (rv n R (a j)))
    (h1 : ∀ i ∈ U, ∀ j ∈ U, i ≠ j → corrOf P (rv n R (a i)) (rv n R (a j)) ^ 2 < 1) (hf : ∀ i j, FinePair n P R ω (a i) (a j))
    {i : Nat} (hi : i ∈ U) :
    Tendsto (fun N => penalty (fun j => col n R ω N (aN N j)) U i) atTop (𝓝 (penaltyOf P (fun j => rv n R (a j)) U i)) := by
  unfold penalty penaltyOf
  refine list_tendsto _ fun j hj => ?_
  obtain ⟨hj, hne⟩ := List.mem_filter.1 hj
  have hne : j ≠ i := by simpa using hne
  exact ((tendsto_const_nhds.min (direction_tendsto hR h2 hω (ha i hi) (ha j hj) (hv i hi) (hv j hj) (h1 i hi j hj (Ne.symm hne)) (hf i j)))).pow 2

/-! ### Independence of the variables -/

/-- No linear combination of the variables `U` is constant. -/
def Free (P : Measure Ω) (U : List Nat) (Y : Nat → Ω → ℝ) : Prop :=
  ∀ (b : Nat → ℝ) (b0 : ℝ), (∀ᵐ ω ∂P, b0 + (U.map (fun j => b j * Y j ω)).sum = 0) → ∀ j ∈ U, b j = 0

theorem free_step {U : List Nat} (hnd : U.Nodup) {m : Nat} (hm : m ∈ U) {Y Y' : Nat → Ω → ℝ} (h : Free P U Y) {c : Nat → ℝ}
    (hY : ∀ i ∈ U, i ≠ m → Y' i = fun ω => Y i ω - c i * Y m ω) : Free P (U.filter (fun i => decide (i ≠ m))) Y' := by
  intro b b0 hb j hj
  obtain ⟨hjU, hjm⟩ := List.mem_filter.1 hj
  have hjm : j ≠ m := by simpa using hjm
  have := h (fun i => if i = m then -((U.filter (fun i => decide (i ≠ m))).map (fun i => b i * c i)).sum else b i) b0 (by
    filter_upwards [hb] with ω hω
    rw [← hω, Pairwise.sum_split hnd hm, if_pos rfl]
    have e1 : ((U.filter (fun i => decide (i ≠ m))).map (fun i => (if i = m then
        -((U.filter (fun i => decide (i ≠ m))).map (fun i => b i * c i)).sum else b i) * Y i ω)).sum =
        ((U.filter (fun i => decide (i ≠ m))).map (fun i => b i * Y' i ω + b i * c i * Y m ω)).sum := by
      congr 1
      refine List.map_congr_left fun i hi => ?_
      obtain ⟨hiU, him⟩ := List.mem_filter.1 hi
      have him : i ≠ m := by simpa using him
      rw [if_neg him, hY i hiU him]; ring
    rw [e1, List.sum_map_add, List.sum_map_mul_right]; ring) j hjU
  simpa [hjm] using this

theorem integral_sq_pos {f : Ω → ℝ} (hf : MemLp f 2 P) (h0 : ¬ f =ᵐ[P] 0) : 0 < ∫ ω, f ω * f ω ∂P := by
  refine lt_of_le_of_ne (integral_nonneg fun ω => mul_self_nonneg _) fun e => h0 ?_
  have := (integral_eq_zero_iff_of_nonneg (fun ω => mul_self_nonneg (f ω)) (hf.integrable_mul hf)).1 e.symm
  filter_upwards [this] with ω hω
  exact mul_self_eq_zero.1 hω

theorem free_var (hR : IidRows P R) (h2 : ∀ j, j < n → Integrable (fun ω => R 0 ω j ^ 2) P) {U : List Nat} (hnd : U.Nodup)
    {a : Nat → Nat → ℝ} (h : Free P U (fun j => rv n R (a j))) {i : Nat} (hi : i ∈ U) :
    0 < covOf P (rv n R (a i)) (rv n R (a i)) := by
  unfold covOf
  refine integral_sq_pos ((form_sq hR h2 (a i)).sub (memLp_const _)) fun e => ?_
  have := h (fun j => if j = i then 1 else 0) (-meanOf P (rv n R (a i))) (by
    filter_upwards [e] with ω hω
    have e1 : (U.map (fun j => (if j = i then (1 : ℝ) else 0) * rv n R (a j) ω)).sum = rv n R (a i) ω := by
      rw [← Pairwise.sum_single hnd hi (fun j => rv n R (a j) ω)]
      congr 1
      exact List.map_congr_left fun j _ => by split_ifs <;> simp
    rw [e1]
    simp only [Pi.zero_apply] at hω
    linarith) i hi
  simp at this

theorem integral_z_sq {a : Nat → ℝ} (hv : 0 < covOf P (rv n R a) (rv n R a)) :
    ∫ ω, rv n R (zP n P R a) ω * rv n R (zP n P R a) ω ∂P = 1 := by
  rw [← zOf_rv]
  have : ∀ ω, zOf P (rv n R a) ω * zOf P (rv n R a) ω =
      (rv n R a ω - meanOf P (rv n R a)) * (rv n R a ω - meanOf P (rv n R a)) / covOf P (rv n R a) (rv n R a) := by
    intro ω
    unfold zOf
    rw [div_mul_div_comm, Real.mul_self_sqrt hv.le]
  simp only [this]
  rw [integral_div]
  exact div_self hv.ne'

theorem free_corr (hR : IidRows P R) (h2 : ∀ j, j < n → Integrable (fun ω => R 0 ω j ^ 2) P) {U : List Nat} (hnd : U.Nodup)
    {a : Nat → Nat → ℝ} (h : Free P U (fun j => rv n R (a j))) {i j : Nat} (hi : i ∈ U) (hj : j ∈ U) (hij : i ≠ j) :
    corrOf P (rv n R (a i)) (rv n R (a j)) ^ 2 < 1 := by
  have vi := free_var hR h2 hnd h hi
  have vj := free_var hR h2 hnd h hj
  set ρ := corrOf P (rv n R (a i)) (rv n R (a j)) with hρ
  set z := rv n R (zP n P R (a i)) with hz
  set w := rv n R (zP n P R (a j)) with hw
  have e0 : ∫ ω, z ω * w ω ∂P = ρ := by rw [hρ, corrOf, zOf_rv, zOf_rv]
  have hp : 0 < ∫ ω, (z ω - ρ * w ω) * (z ω - ρ * w ω) ∂P := by
    refine integral_sq_pos ((form_sq hR h2 _).sub ((form_sq hR h2 _).const_mul ρ)) fun e => ?_
    have si := (Real.sqrt_pos.2 vi).ne'
    have := h (fun k => if k = i then 1 / √(covOf P (rv n R (a i)) (rv n R (a i))) else if k = j then
        -(ρ / √(covOf P (rv n R (a j)) (rv n R (a j)))) else 0)
      (-(meanOf P (rv n R (a i)) / √(covOf P (rv n R (a i)) (rv n R (a i)))) + ρ * (meanOf P (rv n R (a j)) / √(covOf P (rv n R (a j)) (rv n R (a j))))) (by
      filter_upwards [e] with ω hω
      have e1 : (U.map (fun k => (if k = i then 1 / √(covOf P (rv n R (a i)) (rv n R (a i))) else if k = j then
          -(ρ / √(covOf P (rv n R (a j)) (rv n R (a j)))) else 0) * rv n R (a k) ω)).sum =
          (U.map (fun k => if k = i then 1 / √(covOf P (rv n R (a i)) (rv n R (a i))) * rv n R (a k) ω else 0)).sum +
          (U.map (fun k => if k = j then -(ρ / √(covOf P (rv n R (a j)) (rv n R (a j)))) * rv n R (a k) ω else 0)).sum := by
        rw [← List.sum_map_add]
        congr 1
        refine List.map_congr_left fun k _ => ?_
        by_cases h1 : k = i
        · subst h1; simp [hij]
        · simp [h1]
      rw [e1, Pairwise.sum_single hnd hi (fun k => 1 / √(covOf P (rv n R (a i)) (rv n R (a i))) * rv n R (a k) ω),
        Pairwise.sum_single hnd hj (fun k => -(ρ / √(covOf P (rv n R (a j)) (rv n R (a j)))) * rv n R (a k) ω)]
      have hω : z ω - ρ * w ω = 0 := hω
      rw [hz, hw, ← zOf_rv, ← zOf_rv] at hω
      unfold zOf at hω
      rw [← hω]; ring) i hi
    rw [if_pos rfl] at this
    exact (one_div_ne_zero si) this
  have e2 : ∫ ω, (z ω - ρ * w ω) * (z ω - ρ * w ω) ∂P = 1 - ρ ^ 2 := by
    have iz : Integrable (fun ω => z ω * z ω) P := form_prod_int hR h2 _ _
    have iw : Integrable (fun ω => w ω * w ω) P := form_prod_int hR h2 _ _
    have izw : Integrable (fun ω => z ω * w ω) P := form_prod_int hR h2 _ _
    have : ∀ ω, (z ω - ρ * w ω) * (z ω - ρ * w ω) = z ω * z ω - 2 * ρ * (z ω * w ω) + ρ ^ 2 * (w ω * w ω) := fun ω => by ring
    have e3 : ∫ ω, z ω * z ω - 2 * ρ * (z ω * w ω) + ρ ^ 2 * (w ω * w ω) ∂P =
        (∫ ω, z ω * z ω - 2 * ρ * (z ω * w ω) ∂P) + ∫ ω, ρ ^ 2 * (w ω * w ω) ∂P :=
      integral_add (iz.sub (izw.const_mul _)) (iw.const_mul _)
    have e4 : ∫ ω, z ω * z ω - 2 * ρ * (z ω * w ω) ∂P = (∫ ω, z ω * z ω ∂P) - ∫ ω, 2 * ρ * (z ω * w ω) ∂P :=
      integral_sub iz (izw.const_mul _)
    simp only [this]
    rw [e3, e4, integral_const_mul, integral_const_mul, integral_z_sq vi, integral_z_sq vj, e0]
    ring
  rw [e2] at hp
  linarith

/-! ### The samples -/

theorem slope_residual (N : Nat) (ω : Ω) (a b : Nat → ℝ)
    (hv : (∑ r, (col n R ω N b r - sampleMean (col n R ω N b)) * (col n R ω N b r - sampleMean (col n R ω N b))) / N ≠ 0) {c : ℝ}
    (hc : c = (∑ r, (col n R ω N a r - sampleMean (col n R ω N a)) * (col n R ω N b r - sampleMean (col n R ω N b))) / N /
      ((∑ r, (col n R ω N b r - sampleMean (col n R ω N b)) * (col n R ω N b r - sampleMean (col n R ω N b))) / N)) :
    IsSlopeResidual (col n R ω N a) (col n R ω N b) (col n R ω N (mix 1 (-c) a b)) := by
  refine ⟨⟨c, fun r => by rw [col, form_mix, col, col]; ring⟩, ?_⟩
  set x := col n R ω N a with hx
  set m := col n R ω N b with hm
  have hN : (N : ℝ) ≠ 0 := fun h => hv (by rw [h, div_zero])
  have hv' : ∑ r, (m r - sampleMean m) * (m r - sampleMean m) ≠ 0 := fun h => hv (by rw [h, zero_div])
  have h0 : ∑ r, (m r - sampleMean m) = 0 := by
    rw [sum_sub_distrib, sum_const, card_univ, Fintype.card_fin, nsmul_eq_mul, sampleMean, mul_div_cancel₀ _ hN, sub_self]
  have e : ∀ r, col n R ω N (mix 1 (-c) a b) r * (m r - sampleMean m) = (x r - sampleMean x) * (m r - sampleMean m) -
      c * ((m r - sampleMean m) * (m r - sampleMean m)) + (sampleMean x - c * sampleMean m) * (m r - sampleMean m) := by
    intro r
    have : col n R ω N (mix 1 (-c) a b) r = x r - c * m r := by rw [hx, hm, col, form_mix, col, col]; ring
    rw [this]; ring
  simp only [e]
  rw [sum_add_distrib, sum_sub_distrib, ← mul_sum, ← mul_sum, h0, hc, div_div_div_cancel_right₀ hN, div_mul_cancel₀ _ hv']
  ring

theorem sample_order (hR : IidRows P R) (h2 : ∀ j, j < n → Integrable (fun ω => R 0 ω j ^ 2) P) {Y : Nat → Ω → ℝ} {U l : List Nat}
    (h : PopulationOrder P Y U l) : ∀ a : Nat → Nat → ℝ, (∀ j ∈ U, Y j = rv n R (a j)) → U.Nodup → Free P U Y →
    ∀ᵐ ω ∂P, ∀ aN : Nat → Nat → Nat → ℝ, (∀ j ∈ U, Conv n (fun N => aN N j) (a j)) →
      ∀ᶠ N in atTop, PairwiseOrder (· < ·) (fun j => col n R ω N (aN N j)) U l := by
  induction h with
  | nil Y => exact fun a _ _ _ => Eventually.of_forall fun ω aN _ => Eventually.of_forall fun N => .nil _
  | @cons Y Y' U l m hm best res rest ih =>
    intro a hY hnd hfree
    have hfree' : Free P U (fun j => rv n R (a j)) := by
      intro b b0 hb
      refine hfree b b0 ?_
      filter_upwards [hb] with ω hω
      rw [← hω]
      congr 2
      exact List.map_congr_left fun j hj => by rw [hY j hj]
    have hv := fun j (hj : j ∈ U) => free_var hR h2 hnd hfree' hj
    have hc := fun i (hi : i ∈ U) j (hj : j ∈ U) (hij : i ≠ j) => free_corr hR h2 hnd hfree' hi hj hij
    set c : Nat → ℝ := fun i => covOf P (Y i) (Y m) / covOf P (Y m) (Y m) with hcdef
    have hY' : ∀ i ∈ U.filter (fun i => decide (i ≠ m)), Y' i = rv n R (mix 1 (-(c i)) (a i) (a m)) := by
      intro i hi
      obtain ⟨hiU, him⟩ := List.mem_filter.1 hi
      rw [res i hiU (by simpa using him)]
      funext ω
      rw [rv, form_mix, hcdef]
      beta_reduce
      rw [hY i hiU, hY m hm, rv, rv]; ring
    have hpen : ∀ i, penaltyOf P Y U i = penaltyOf P (fun j => rv n R (a j)) U i ∨ i ∉ U := by
      intro i
      by_cases hi : i ∈ U
      · left
        unfold penaltyOf
        congr 1
        refine List.map_congr_left fun j hj => ?_
        beta_reduce
        rw [hY i hi, hY j (List.mem_filter.1 hj).1]
      · exact Or.inr hi
    have hpen : ∀ i ∈ U, penaltyOf P Y U i = penaltyOf P (fun j => rv n R (a j)) U i := fun i hi => (hpen i).resolve_right (not_not.2 hi)
    filter_upwards [ae_good hR h2, ih (fun i => mix 1 (-(c i)) (a i) (a m)) hY' (hnd.filter _)
      (free_step hnd hm hfree (fun i hi him => res i hi him)), ae_all_iff.2 fun i => ae_all_iff.2 fun j => ae_finePair hR h2 (a i) (a j)]
      with ω hω hih hf aN haN
    have hcov := fun i (hi : i ∈ U) => cov_tendsto hR h2 hω (haN i hi) (haN m hm)
    have hvm := hv m hm
    have hsl := fun i (hi : i ∈ U) => (hcov i hi).div (hcov m hm) hvm.ne'
    have h3 := hih (fun N i => mix 1 (-((∑ r, (col n R ω N (aN N i) r - sampleMean (col n R ω N (aN N i))) *
        (col n R ω N (aN N m) r - sampleMean (col n R ω N (aN N m)))) / N / ((∑ r, (col n R ω N (aN N m) r -
        sampleMean (col n R ω N (aN N m))) * (col n R ω N (aN N m) r - sampleMean (col n R ω N (aN N m)))) / N))) (aN N i) (aN N m))
      (fun i hi => by
        have hiU := (List.mem_filter.1 hi).1
        refine conv_mix tendsto_const_nhds ?_ (haN i hiU) (haN m hm)
        have := (hsl i hiU).neg
        rw [hcdef]
        beta_reduce
        rw [hY i hiU, hY m hm]
        exact this)
    have h4 : ∀ᶠ N in atTop, ∀ i ∈ U.toFinset, i ≠ m →
        penalty (fun j => col n R ω N (aN N j)) U m < penalty (fun j => col n R ω N (aN N j)) U i := by
      rw [eventually_all_finset]
      intro i hi
      have hi : i ∈ U := by simpa using hi
      by_cases him : i = m
      · exact Eventually.of_forall fun _ hne => absurd him hne
      have hlt := best i hi him
      rw [hpen m hm, hpen i hi] at hlt
      filter_upwards [(penalty_tendsto hR h2 hω haN hv hc hf hm).eventually_lt (penalty_tendsto hR h2 hω haN hv hc hf hi) hlt] with N hN _
      exact hN
    filter_upwards [h3, h4, (hcov m hm).eventually_ne hvm.ne'] with N h5 h6 h7
    exact .cons hm (fun i hi him => h6 i (by simpa using hi) him) (fun i hi him => slope_residual N ω _ _ h7 rfl) h5

/-- Eventually the columns are linearly independent. -/
theorem sample_identified (hR : IidRows P R) (hreg : Regular P n (fun j ω => R 0 ω j)) {ω : Ω} (hω : Good n P R ω) :
    ∀ᶠ N in atTop, Identified n (sampleOf R ω N) := by
  have h2 := hreg.square
  set G : Matrix (Fin (n + 1)) (Fin (n + 1)) ℝ := Matrix.of fun k l => ∫ x, ext n (R 0 x) k * ext n (R 0 x) l ∂P with hG
  set GN : Nat → Matrix (Fin (n + 1)) (Fin (n + 1)) ℝ := fun N => Matrix.of fun k l => (∑ r : Fin N, ext n (R r ω) k * ext n (R r ω) l) / N with hGN
  have hdet : G.det ≠ 0 := by
    intro h0
    obtain ⟨c, hc, hG0⟩ := Matrix.exists_mulVec_eq_zero_iff.2 h0
    set a : Nat → ℝ := fun k => if h : k < n + 1 then c ⟨k, h⟩ else 0 with ha
    have e0 : ∫ x, form n a (R 0 x) * form n a (R 0 x) ∂P = 0 := by
      rw [integral_form_mul hR h2, Finset.sum_range]
      refine sum_eq_zero fun k _ => ?_
      rw [Finset.sum_range]
      have := congrFun hG0 k
      rw [Matrix.mulVec, dotProduct] at this
      have e : ∀ l : Fin (n + 1), a k * a l * ∫ x, ext n (R 0 x) k * ext n (R 0 x) l ∂P = a k * (G k l * c l) := by
        intro l
        have : a l = c l := by rw [ha]; exact dif_pos l.2
        rw [this, hG, Matrix.of_apply]; ring
      simp only [e]
      rw [← mul_sum, this]
      simp
    have hz : (fun x => form n a (R 0 x)) =ᵐ[P] 0 := by
      by_contra h
      exact (integral_sq_pos (form_sq hR h2 a) h).ne' e0
    have hz' : ∀ᵐ x ∂P, a n + ∑ j ∈ range n, a j * R 0 x j = 0 := by
      filter_upwards [hz] with x hx
      rw [← form_split]; exact hx
    have h1 := hreg.free a (a n) hz'
    have hn : a n = 0 := by
      obtain ⟨x, hx⟩ := hz'.exists
      rw [sum_eq_zero fun j hj => by rw [h1 j (mem_range.1 hj), zero_mul], add_zero] at hx
      exact hx
    refine hc (funext fun k => ?_)
    have : a k = c k := by rw [ha]; exact dif_pos k.2
    rw [← this]
    by_cases hk : (k : Nat) < n
    · exact h1 k hk
    · have : (k : Nat) = n := by omega
      rw [this, hn]; rfl
  have ht : Tendsto GN atTop (𝓝 G) := by
    exact tendsto_pi_nhds.2 fun k => tendsto_pi_nhds.2 fun l => hω k l
  have hd : Tendsto (fun N => (GN N).det) atTop (𝓝 G.det) := (Continuous.matrix_det continuous_id).tendsto G |>.comp ht
  filter_upwards [hd.eventually_ne hdet] with N hN b b0 hb j hj
  by_contra hne
  refine hN (Matrix.exists_mulVec_eq_zero_iff.1 ⟨fun k => if (k : Nat) = n then b0 else b k, ?_, ?_⟩)
  · intro h
    have := congrFun h ⟨j, by omega⟩
    simp only [Pi.zero_apply] at this
    rw [if_neg (by omega)] at this
    exact hne this
  · funext k
    rw [Matrix.mulVec, dotProduct]
    have e : ∀ l : Fin (n + 1), GN N k l * (if (l : Nat) = n then b0 else b l) =
        (∑ r : Fin N, ext n (R r ω) k * ((if (l : Nat) = n then b0 else b l) * ext n (R r ω) l)) / N := by
      intro l
      rw [hGN]
      simp only [Matrix.of_apply]
      rw [div_mul_eq_mul_div, sum_mul]
      congr 1
      exact sum_congr rfl fun r _ => by ring
    simp only [e]
    rw [← sum_div, sum_comm]
    simp only [← mul_sum]
    have e2 : ∀ r : Fin N, ∑ l : Fin (n + 1), (if (l : Nat) = n then b0 else b l) * ext n (R r ω) l = 0 := by
      intro r
      rw [← Finset.sum_range (fun l => (if l = n then b0 else b l) * ext n (R r ω) l)]
      have := form_split n (fun l => if l = n then b0 else b l) (R r ω)
      unfold form at this
      rw [this, if_pos rfl, ← hb r]
      congr 1
      exact sum_congr rfl fun k hk => by rw [if_neg (by have := mem_range.1 hk; omega)]; rfl
    simp only [e2, mul_zero, sum_const_zero, zero_div, Pi.zero_apply]

end Verif.Consistency
